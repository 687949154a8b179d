import Verif.Thr.Pool

/-! # Thread pool theorems: C29 -/

namespace Kasync.ThrPool

/-! ## Vocabulary -/

/-- the thread was given a task it has not entered yet -/
def assigned (th : Th) : Prop := th.pc = .boot ∨ (th.pc = .waiting ∧ th.cmd = .start)

instance (th : Th) : Decidable (assigned th) := by unfold assigned; exact inferInstance

/-- the thread has a task: not yet entered, running, or just returned from -/
def busy (th : Th) : Bool := decide (assigned th) || decide (th.pc = .running) || decide (th.pc = .finished)

/-- the thread is parked, without a command -/
def parked (th : Th) : Prop := th.pc = .waiting ∧ th.cmd = .null

/-- number of threads among the first `n` that have a task -/
def busyCount (f : Nat → Th) (n : Nat) : Nat := ((List.range n).filter (fun t => busy (f t))).length

/-- steps taken by the pool's threads -/
def isThread : Op → Bool
  | .boot _ | .ret .. | .park _ | .wake _ => true
  | _ => false

/-! ## Invariant -/

structure Inv (s : St) : Prop where
  out : ∀ t, s.nthr ≤ t → (s.thr t).pc = .absent
  inn : ∀ t, t < s.nthr → (s.thr t).pc ≠ .absent
  free_iff : ∀ t, t ∈ s.free ↔ parked (s.thr t)
  nodup : s.free.Nodup
  sig_iff : ∀ t, (s.thr t).sig = true ↔ (s.thr t).pc = .waiting ∧ (s.thr t).cmd ≠ .null
  fcount : s.freeCount = s.free.length
  wcount : s.workCount = busyCount s.thr s.nthr
  hold : ∀ t, assigned (s.thr t) → (s.thr t).task < s.ntask ∧ (s.thr t).task ∉ s.began
  hold_inj : ∀ t u, assigned (s.thr t) → assigned (s.thr u) → (s.thr t).task = (s.thr u).task → t = u
  all : ∀ k, k < s.ntask → k ∈ s.began ∨ ∃ t, assigned (s.thr t) ∧ (s.thr t).task = k
  began_lt : ∀ k ∈ s.began, k < s.ntask
  began_nodup : s.began.Nodup
  run_inj : ∀ t u, (s.thr t).pc = .running → (s.thr u).pc = .running → (s.thr t).task = (s.thr u).task → t = u
  run_mem : ∀ t, (s.thr t).pc = .running → (s.thr t).task ∈ s.began ∧ (s.thr t).task ∉ s.ended
  ended_nodup : s.ended.Nodup
  ended_sub : ∀ k ∈ s.ended, k ∈ s.began
  began_all : ∀ k ∈ s.began, k ∈ s.ended ∨ ∃ t, (s.thr t).pc = .running ∧ (s.thr t).task = k

@[simp] theorem upd_same (f : Nat → Th) (i : Nat) (x : Th) : upd f i x i = x := if_pos rfl
theorem upd_ne (f : Nat → Th) {i j : Nat} (x : Th) (h : j ≠ i) : upd f i x j = f j := if_neg h
theorem upd_upd (f : Nat → Th) (i : Nat) (x y : Th) : upd (upd f i x) i y = upd f i y := by
  funext j; unfold upd; split <;> rfl

theorem busyCount_succ (f : Nat → Th) (n : Nat) : busyCount f (n + 1) = busyCount f n + (if busy (f n) then 1 else 0) := by
  unfold busyCount
  rw [List.range_succ, List.filter_append, List.length_append]
  cases h : busy (f n) <;> simp [h]

theorem busyCount_upd_out (f : Nat → Th) (n i : Nat) (x : Th) (h : n ≤ i) : busyCount (upd f i x) n = busyCount f n := by
  induction n with
  | zero => rfl
  | succ n ih => rw [busyCount_succ, busyCount_succ, ih (by omega), upd_ne _ _ (by omega)]

theorem busyCount_upd (f : Nat → Th) (n i : Nat) (x : Th) (h : i < n) :
    busyCount (upd f i x) n + (if busy (f i) then 1 else 0) = busyCount f n + (if busy x then 1 else 0) := by
  induction n with
  | zero => omega
  | succ n ih =>
    rw [busyCount_succ, busyCount_succ]
    rcases Nat.lt_or_ge i n with h' | h'
    · rw [upd_ne f x (by omega : n ≠ i)]; have := ih h'; omega
    · have : i = n := by omega
      subst this
      rw [busyCount_upd_out _ _ _ _ (Nat.le_refl _), upd_same]; omega

theorem inv_init : Inv pinit := by
  constructor <;> simp [pinit, parked, assigned, busyCount]

theorem Inv.lt {s : St} (h : Inv s) {t : Nat} (ht : (s.thr t).pc ≠ .absent) : t < s.nthr := by
  rcases Nat.lt_or_ge t s.nthr with h' | h'
  · exact h'
  · exact absurd (h.out t h') ht

/-- the head of the free list is told to end -/
def endHead (s : St) (t : Nat) (r : List Nat) : St :=
  { s with free := r, freeCount := s.freeCount - 1, thr := upd s.thr t { s.thr t with cmd := .end, sig := true } }

theorem endHead_inv {s : St} {t : Nat} {r : List Nat} (h : Inv s) (hf : s.free = t :: r) : Inv (endHead s t r) := by
  have hp : parked (s.thr t) := (h.free_iff t).1 (by rw [hf]; exact List.mem_cons_self)
  have hlt := h.lt (t := t) (by rw [hp.1]; decide)
  have hnd := h.nodup
  rw [hf, List.nodup_cons] at hnd
  have hb := busyCount_upd s.thr s.nthr t { s.thr t with cmd := .end, sig := true } hlt
  have hb1 : busy (s.thr t) = false := by simp [busy, assigned, hp.1, hp.2]
  have hb2 : busy { s.thr t with cmd := .end, sig := true } = false := by simp [busy, assigned, hp.1]
  rw [hb1, hb2] at hb
  obtain ⟨o, i, fi, nd, si, fc, wc, ho, hi, al, bl, bn, ri, rm, en, es, ba⟩ := h
  obtain ⟨hp1, hp2⟩ := hp
  constructor <;> simp only [endHead]
  case wcount => rw [wc]; simp at hb; omega
  case fcount => rw [fc, hf]; simp
  all_goals (simp only [assigned, parked, upd] at *; grind)

theorem notice_end {s : St} {t : Nat} {r : List Nat} {c : Int} (h : (s.thr t).pc = .waiting) :
    notice { s with free := r, freeCount := c, thr := upd s.thr t { s.thr t with cmd := .end } } t =
      .ok { s with free := r, freeCount := c, thr := upd s.thr t { s.thr t with cmd := .end, sig := true } } := by
  simp [notice, h, upd_upd]

theorem flushLoop_inv {minFree now : Int} {fuel : Nat} {s s' : St} (h : Inv s) (he : flushLoop minFree now fuel s = .ok s') : Inv s' := by
  induction fuel generalizing s with
  | zero => cases he
  | succ n ih =>
    unfold flushLoop at he
    split at he
    · cases he; exact h
    · split at he
      · split at he
        · cases he; exact h
        · cases he
      · rename_i t r hf
        have hp : parked (s.thr t) := (h.free_iff t).1 (by rw [hf]; exact List.mem_cons_self)
        split at he
        · cases he
        · split at he
          · cases he; exact h
          · rw [notice_end hp.1] at he
            exact ih (endHead_inv h hf) he

theorem closeLoop_inv {fuel : Nat} {s s' : St} (h : Inv s) (he : closeLoop fuel s = .ok s') : Inv s' := by
  induction fuel generalizing s with
  | zero => cases he
  | succ n ih =>
    unfold closeLoop at he
    split at he
    · split at he
      · cases he; exact h
      · cases he
    · rename_i t r hf
      have hp : parked (s.thr t) := (h.free_iff t).1 (by rw [hf]; exact List.mem_cons_self)
      split at he
      · cases he
      · rw [notice_end (c := s.freeCount) hp.1] at he
        exact ih (s := endHead s t r) (endHead_inv h hf) he

theorem poolStart_new {s : St} {c : Bool} (h : s.free.getLast? = none) :
    poolStart s c = if c then
      .ok { s with thr := upd s.thr s.nthr { pc := .boot, task := s.ntask }, nthr := s.nthr + 1, ntask := s.ntask + 1,
                   workCount := s.workCount + 1 }
    else .ok { s with refused := s.refused + 1 } := by
  unfold poolStart; rw [h]

/-- a parked thread is given the next task -/
def giveTask (s : St) (t : Nat) : St :=
  { s with thr := upd s.thr t { s.thr t with cmd := .start, task := s.ntask, sig := true },
           freeCount := s.freeCount - 1, free := s.free.erase t, ntask := s.ntask + 1, workCount := s.workCount + 1 }

theorem poolStart_old {s : St} {c : Bool} {t : Nat} (h : Inv s) (hl : s.free.getLast? = some t) : poolStart s c = .ok (giveTask s t) := by
  have hp : parked (s.thr t) := (h.free_iff t).1 (List.mem_of_getLast? hl)
  unfold poolStart; rw [hl]
  simp [notice, hp.1, upd_upd, giveTask]

theorem giveTask_inv {s : St} {t : Nat} (h : Inv s) (hm : t ∈ s.free) : Inv (giveTask s t) := by
  have hp : parked (s.thr t) := (h.free_iff t).1 hm
  have hlt := h.lt (t := t) (by rw [hp.1]; decide)
  have hb := busyCount_upd s.thr s.nthr t { s.thr t with cmd := .start, task := s.ntask, sig := true } hlt
  have hb1 : busy (s.thr t) = false := by simp [busy, assigned, hp.1, hp.2]
  have hb2 : busy { s.thr t with cmd := .start, task := s.ntask, sig := true } = true := by simp [busy, assigned, hp.1]
  rw [hb1, hb2] at hb
  have hme : ∀ u, u ∈ s.free.erase t ↔ u ≠ t ∧ u ∈ s.free := fun u => h.nodup.mem_erase_iff
  have hne := h.nodup.erase t
  obtain ⟨o, i, fi, nd, si, fc, wc, ho, hi, al, bl, bn, ri, rm, en, es, ba⟩ := h
  obtain ⟨hp1, hp2⟩ := hp
  constructor <;> simp only [giveTask]
  case wcount => rw [wc]; simp at hb; omega
  case fcount =>
    rw [fc, List.length_erase_of_mem hm]
    have := List.length_pos_of_mem hm
    omega
  case nodup => exact hne
  case all =>
    intro k hk
    by_cases hkn : k = s.ntask
    · exact .inr ⟨t, by simp [assigned, hp1], by simp [hkn]⟩
    · rcases al k (by omega) with h | ⟨u, hu, hk'⟩
      · exact .inl h
      · refine .inr ⟨u, ?_⟩
        have : u ≠ t := by rintro rfl; simp [assigned, hp1, hp2] at hu
        rw [upd_ne _ _ this]; exact ⟨hu, hk'⟩
  all_goals (simp only [assigned, parked, upd] at *; grind)

theorem Inv.step {s s' : St} {o : Op} (h : Inv s) (he : step s o = .ok s') : Inv s' := by
  cases o with
  | start c =>
    change poolStart s c = _ at he
    rcases hl : s.free.getLast? with _ | t
    · rw [poolStart_new hl] at he
      cases c
      · cases he
        obtain ⟨o, i, fi, nd, si, fc, wc, ho, hi, al, bl, bn, ri, rm, en, es, ba⟩ := h
        constructor <;> assumption
      · cases he
        have hab := h.out s.nthr (Nat.le_refl _)
        have hb := busyCount_upd_out s.thr s.nthr s.nthr { pc := .boot, task := s.ntask } (Nat.le_refl _)
        obtain ⟨o, i, fi, nd, si, fc, wc, ho, hi, al, bl, bn, ri, rm, en, es, ba⟩ := h
        constructor <;> dsimp only
        case wcount => rw [wc, busyCount_succ, hb, upd_same]; simp [busy, assigned]
        case nodup => exact nd
        case all =>
          intro k hk
          by_cases hkn : k = s.ntask
          · exact .inr ⟨s.nthr, by simp [assigned], by simp [hkn]⟩
          · rcases al k (by omega) with h | ⟨u, hu, hk'⟩
            · exact .inl h
            · refine .inr ⟨u, ?_⟩
              have : u ≠ s.nthr := by rintro rfl; simp [assigned, hab] at hu
              rw [upd_ne _ _ this]; exact ⟨hu, hk'⟩
        all_goals (simp only [assigned, parked, upd] at *; grind)
    · rw [poolStart_old h hl] at he
      cases he
      exact giveTask_inv h (List.mem_of_getLast? hl)
  | boot t =>
    simp only [ThrPool.step] at he
    split at he
    · rename_i hp
      cases he
      have hlt := h.lt (t := t) (by rw [hp]; decide)
      have hb := busyCount_upd s.thr s.nthr t { s.thr t with pc := .running } hlt
      have hb1 : busy (s.thr t) = true := by simp [busy, assigned, hp]
      have hb2 : busy { s.thr t with pc := .running } = true := by simp [busy]
      rw [hb1, hb2] at hb
      obtain ⟨o, i, fi, nd, si, fc, wc, ho, hi, al, bl, bn, ri, rm, en, es, ba⟩ := h
      constructor <;> dsimp only
      case wcount => rw [wc]; simp at hb; omega
      case began_nodup => exact List.nodup_append.2 ⟨bn, by simp, by simp only [assigned] at *; grind⟩
      case all =>
        intro k hk
        rcases al k hk with h | ⟨u, hu, hk'⟩
        · exact .inl (by simp [h])
        · by_cases hut : u = t
          · exact .inl (by simp [← hk', hut])
          · exact .inr ⟨u, by rw [upd_ne _ _ hut]; exact ⟨hu, hk'⟩⟩
      all_goals (simp only [assigned, parked, upd] at *; grind)
    · cases he
  | ret t now =>
    simp only [ThrPool.step] at he
    split at he
    · rename_i hp
      cases he
      have hlt := h.lt (t := t) (by rw [hp]; decide)
      have hb := busyCount_upd s.thr s.nthr t { s.thr t with pc := .finished, endTime := now } hlt
      have hb1 : busy (s.thr t) = true := by simp [busy, hp]
      have hb2 : busy { s.thr t with pc := .finished, endTime := now } = true := by simp [busy]
      rw [hb1, hb2] at hb
      obtain ⟨o, i, fi, nd, si, fc, wc, ho, hi, al, bl, bn, ri, rm, en, es, ba⟩ := h
      constructor <;> dsimp only
      case wcount => rw [wc]; simp at hb; omega
      case ended_nodup => exact List.nodup_append.2 ⟨en, by simp, by grind⟩
      case began_all =>
        intro k hk
        rcases ba k hk with h | ⟨u, hu, hk'⟩
        · exact .inl (by simp [h])
        · by_cases hut : u = t
          · exact .inl (by simp [← hk', hut])
          · exact .inr ⟨u, by rw [upd_ne _ _ hut]; exact ⟨hu, hk'⟩⟩
      all_goals (simp only [assigned, parked, upd] at *; grind)
    · cases he
  | park t =>
    simp only [ThrPool.step] at he
    split at he
    · rename_i hp
      cases he
      have hlt := h.lt (t := t) (by rw [hp]; decide)
      have hb := busyCount_upd s.thr s.nthr t { s.thr t with pc := .waiting, cmd := .null } hlt
      have hb1 : busy (s.thr t) = true := by simp [busy, hp]
      have hb2 : busy { s.thr t with pc := .waiting, cmd := .null } = false := by simp [busy, assigned]
      rw [hb1, hb2] at hb
      obtain ⟨o, i, fi, nd, si, fc, wc, ho, hi, al, bl, bn, ri, rm, en, es, ba⟩ := h
      constructor <;> dsimp only
      case wcount => rw [wc]; simp at hb; omega
      case fcount => rw [fc]; simp
      case nodup => exact List.nodup_append.2 ⟨nd, by simp, by simp only [parked] at *; grind⟩
      all_goals (simp only [assigned, parked, upd] at *; grind)
    · cases he
  | wake t =>
    simp only [ThrPool.step] at he
    split at he
    · rename_i hp
      have hlt := h.lt (t := t) (by rw [hp.1]; decide)
      have hcmd := ((h.sig_iff t).1 hp.2).2
      split at he
      · rename_i hc
        cases he
        have hb := busyCount_upd s.thr s.nthr t { s.thr t with pc := .running, sig := false } hlt
        have hb1 : busy (s.thr t) = true := by simp [busy, assigned, hp.1, hc]
        have hb2 : busy { s.thr t with pc := .running, sig := false } = true := by simp [busy]
        rw [hb1, hb2] at hb
        obtain ⟨hp1, hp2⟩ := hp
        obtain ⟨o, i, fi, nd, si, fc, wc, ho, hi, al, bl, bn, ri, rm, en, es, ba⟩ := h
        constructor <;> dsimp only
        case wcount => rw [wc]; simp at hb; omega
        case began_nodup => exact List.nodup_append.2 ⟨bn, by simp, by simp only [assigned] at *; grind⟩
        case all =>
          intro k hk
          rcases al k hk with h | ⟨u, hu, hk'⟩
          · exact .inl (by simp [h])
          · by_cases hut : u = t
            · exact .inl (by simp [← hk', hut])
            · exact .inr ⟨u, by rw [upd_ne _ _ hut]; exact ⟨hu, hk'⟩⟩
        all_goals (simp only [assigned, parked, upd] at *; grind)
      · rename_i hc
        cases he
        have hb := busyCount_upd s.thr s.nthr t { s.thr t with pc := .gone, sig := false } hlt
        have hb1 : busy (s.thr t) = false := by simp [busy, assigned, hp.1, hc]
        have hb2 : busy { s.thr t with pc := .gone, sig := false } = false := by simp [busy, assigned]
        rw [hb1, hb2] at hb
        obtain ⟨hp1, hp2⟩ := hp
        obtain ⟨o, i, fi, nd, si, fc, wc, ho, hi, al, bl, bn, ri, rm, en, es, ba⟩ := h
        constructor <;> dsimp only
        case wcount => rw [wc]; simp at hb; omega
        all_goals (simp only [assigned, parked, upd] at *; grind)
      · rename_i hc; exact absurd hc hcmd
    · cases he
  | flush m now => exact flushLoop_inv h he
  | closeAll => exact closeLoop_inv h he

theorem inv_of_reachable {s : St} (h : Reachable step pinit s) : Inv s :=
  h.invariant inv_init (fun _ _ _ hi he => hi.step he)

/-! ## Properties -/

/-- **C29.** Every accepted task is entered at most once and left at most once, a task not entered yet is assigned to exactly one
thread, a task being run is run by exactly one thread. -/
theorem pool_task_exactly_once (s : St) (h : Reachable step pinit s) :
    s.began.Nodup ∧ s.ended.Nodup ∧ (∀ k ∈ s.ended, k ∈ s.began) ∧ (∀ k ∈ s.began, k < s.ntask) ∧
    (∀ k, k < s.ntask → k ∉ s.began →
      ∃ t, (assigned (s.thr t) ∧ (s.thr t).task = k) ∧ ∀ u, assigned (s.thr u) ∧ (s.thr u).task = k → u = t) ∧
    (∀ k, k ∈ s.began → k ∉ s.ended →
      ∃ t, ((s.thr t).pc = .running ∧ (s.thr t).task = k) ∧ ∀ u, (s.thr u).pc = .running ∧ (s.thr u).task = k → u = t) ∧
    (∀ t, assigned (s.thr t) → (s.thr t).task ∉ s.began) ∧
    (∀ t, (s.thr t).pc = .running → (s.thr t).task ∈ s.began ∧ (s.thr t).task ∉ s.ended) := by
  have hi := inv_of_reachable h
  refine ⟨hi.began_nodup, hi.ended_nodup, hi.ended_sub, hi.began_lt, ?_, ?_, fun t ht => (hi.hold t ht).2, hi.run_mem⟩
  · intro k hk hb
    rcases hi.all k hk with h' | ⟨t, ht, hk'⟩
    · exact absurd h' hb
    · exact ⟨t, ⟨ht, hk'⟩, fun u hu => hi.hold_inj u t hu.1 ht (by rw [hu.2, hk'])⟩
  · intro k hb he
    rcases hi.began_all k hb with h' | ⟨t, ht, hk'⟩
    · exact absurd h' he
    · exact ⟨t, ⟨ht, hk'⟩, fun u hu => hi.run_inj u t hu.1 ht (by rw [hu.2, hk'])⟩

/-- **C29.** What `kthread_get_count` reports: the number of threads that have a task and the number of parked threads; and the free list
holds exactly the parked threads, each once. -/
theorem pool_counts (s : St) (h : Reachable step pinit s) :
    s.workCount = ((List.range s.nthr).filter (fun t => busy (s.thr t))).length ∧
    s.freeCount = ((List.range s.nthr).filter (fun t => decide ((s.thr t).pc = .waiting ∧ (s.thr t).cmd = .null))).length ∧
    s.free.Nodup ∧ (∀ t, t ∈ s.free ↔ parked (s.thr t)) := by
  have hi := inv_of_reachable h
  refine ⟨hi.wcount, ?_, hi.nodup, hi.free_iff⟩
  rw [hi.fcount]
  congr 1
  apply List.Perm.length_eq
  refine (List.perm_ext_iff_of_nodup hi.nodup (List.nodup_range.filter _)).2 (fun t => ?_)
  rw [hi.free_iff t]
  simp only [List.mem_filter, List.mem_range, decide_eq_true_eq, parked]
  exact ⟨fun hp => ⟨hi.lt (by rw [hp.1]; decide), hp⟩, fun hp => hp.2⟩

theorem flushLoop_spec {minFree now : Int} (hm : 0 ≤ minFree) {fuel : Nat} {s : St} (h : Inv s) (hfu : s.free.length < fuel) :
    ∃ s' k, flushLoop minFree now fuel s = .ok s' ∧ k ≤ s.free.length ∧ s'.free = s.free.drop k ∧
      (∀ t ∈ s.free.take k, now - (s.thr t).endTime > 60 ∧ s'.thr t = { s.thr t with cmd := .end, sig := true }) ∧
      (∀ t, t ∉ s.free.take k → s'.thr t = s.thr t) ∧
      (k ≠ 0 → minFree ≤ s'.free.length) ∧
      (s'.free.length ≤ minFree ∨ ∃ t r, s'.free = t :: r ∧ now - (s'.thr t).endTime ≤ 60) ∧
      s'.nthr = s.nthr ∧ s'.ntask = s.ntask ∧ s'.began = s.began ∧ s'.ended = s.ended ∧ s'.workCount = s.workCount ∧
      s'.refused = s.refused := by
  induction fuel generalizing s with
  | zero => omega
  | succ n ih =>
    unfold flushLoop
    by_cases h1 : s.freeCount ≤ minFree
    · rw [if_pos h1]
      exact ⟨s, 0, rfl, by omega, rfl, by simp, fun _ _ => rfl, by omega, .inl (by rw [← h.fcount]; exact h1), rfl, rfl, rfl, rfl, rfl, rfl⟩
    · rw [if_neg h1]
      have hfc := h.fcount
      rcases hf : s.free with _ | ⟨t, r⟩
      · rw [hf] at hfc; simp at hfc; omega
      · have hp : parked (s.thr t) := (h.free_iff t).1 (by rw [hf]; exact List.mem_cons_self)
        dsimp only
        rw [if_neg (by rw [hp.1]; decide)]
        by_cases h2 : now - (s.thr t).endTime ≤ maxSleep
        · rw [if_pos h2]
          exact ⟨s, 0, rfl, by omega, by simp [hf], by simp, fun _ _ => rfl, by omega, .inr ⟨t, r, hf, h2⟩, rfl, rfl, rfl, rfl, rfl, rfl⟩
        · rw [if_neg h2, notice_end hp.1]
          have hnd := h.nodup
          rw [hf, List.nodup_cons] at hnd
          obtain ⟨s', k, e, hk, hd, ht, hu, hmn, hx, e1, e2, e3, e4, e5, e6⟩ := ih (s := endHead s t r) (endHead_inv h hf)
            (by simp only [endHead]; rw [hf] at hfu; simp at hfu; omega)
          refine ⟨s', k + 1, e, by simp [endHead] at hk; simpa using hk, by simpa [endHead] using hd, ?_, ?_, ?_, hx, e1, e2, e3, e4, e5, e6⟩
          · intro u hu'
            rw [List.take_succ_cons] at hu'
            rcases List.mem_cons.1 hu' with rfl | hu''
            · refine ⟨by unfold maxSleep at h2; omega, ?_⟩
              rw [hu u (fun hc => hnd.1 (List.mem_of_mem_take hc))]
              simp [endHead]
            · have hne : u ≠ t := by rintro rfl; exact hnd.1 (List.mem_of_mem_take hu'')
              have := ht u hu''
              simpa only [endHead, upd_ne _ _ hne] using this
          · intro u hu'
            rw [List.take_succ_cons, List.mem_cons, not_or] at hu'
            rw [hu u hu'.2]; simp only [endHead, upd_ne _ _ hu'.1]
          · intro _
            rw [hd]
            rw [hf] at hfc
            by_cases hk0 : k = 0
            · subst hk0; simp [endHead]; simp at hfc; omega
            · have := hmn hk0; rwa [hd] at this

/-- **C29.** `kthread_flush(min_free, ...)` with `min_free ≥ 0` closes a prefix of the free list: only threads that have been idle for more than
60 seconds, never going below `min_free` parked threads, and it stops only at that limit or at a thread idle for at most 60 seconds.
Every other thread, the tasks and the counters of busy threads are untouched. -/
theorem pool_flush_exact (s : St) (h : Reachable step pinit s) (minFree now : Int) (hm : 0 ≤ minFree) :
    ∃ s' k, step s (.flush minFree now) = .ok s' ∧ k ≤ s.free.length ∧ s'.free = s.free.drop k ∧
      (∀ t ∈ s.free.take k, now - (s.thr t).endTime > 60 ∧ s'.thr t = { s.thr t with cmd := .end, sig := true }) ∧
      (∀ t, t ∉ s.free.take k → s'.thr t = s.thr t) ∧
      (k ≠ 0 → minFree ≤ s'.free.length) ∧
      (s'.free.length ≤ minFree ∨ ∃ t r, s'.free = t :: r ∧ now - (s'.thr t).endTime ≤ 60) ∧
      s'.nthr = s.nthr ∧ s'.ntask = s.ntask ∧ s'.began = s.began ∧ s'.ended = s.ended ∧ s'.workCount = s.workCount ∧
      s'.refused = s.refused :=
  flushLoop_spec hm (inv_of_reachable h) (Nat.lt_succ_self _)

theorem closeLoop_spec {fuel : Nat} {s : St} (h : Inv s) (hfu : s.free.length < fuel) :
    ∃ s', closeLoop fuel s = .ok s' ∧ s'.free = [] ∧ s'.freeCount = 0 ∧
      (∀ t, parked (s.thr t) → s'.thr t = { s.thr t with cmd := .end, sig := true }) ∧
      (∀ t, ¬ parked (s.thr t) → s'.thr t = s.thr t) ∧
      s'.nthr = s.nthr ∧ s'.ntask = s.ntask ∧ s'.began = s.began ∧ s'.ended = s.ended ∧ s'.workCount = s.workCount := by
  induction fuel generalizing s with
  | zero => omega
  | succ n ih =>
    unfold closeLoop
    have hfc := h.fcount
    rcases hf : s.free with _ | ⟨t, r⟩
    · rw [hf] at hfc
      have hnone : ∀ t, ¬ parked (s.thr t) := fun t hp => by have := (h.free_iff t).2 hp; rw [hf] at this; cases this
      dsimp only
      rw [if_pos (by simpa using hfc)]
      exact ⟨s, rfl, hf, by simpa using hfc, fun t hp => absurd hp (hnone t), fun _ _ => rfl, rfl, rfl, rfl, rfl, rfl⟩
    · have hp : parked (s.thr t) := (h.free_iff t).1 (by rw [hf]; exact List.mem_cons_self)
      dsimp only
      rw [if_neg (by rw [hp.1]; decide), notice_end (c := s.freeCount) hp.1]
      obtain ⟨s', e, hd, hc, ht, hu, e1, e2, e3, e4, e5⟩ := ih (s := endHead s t r) (endHead_inv h hf)
        (by simp only [endHead]; rw [hf] at hfu; simp at hfu; omega)
      refine ⟨s', e, hd, hc, ?_, ?_, e1, e2, e3, e4, e5⟩
      · intro u hpu
        by_cases hut : u = t
        · subst hut
          rw [hu u (by simp [endHead, parked])]; simp [endHead]
        · have := ht u (by simpa only [endHead, upd_ne _ _ hut] using hpu)
          simpa only [endHead, upd_ne _ _ hut] using this
      · intro u hpu
        have hut : u ≠ t := by rintro rfl; exact hpu hp
        have := hu u (by simpa only [endHead, upd_ne _ _ hut] using hpu)
        simpa only [endHead, upd_ne _ _ hut] using this

/-- **C29.** `kthread_close_all_free` tells exactly the parked threads to end and leaves every other thread, in particular every thread
that was given a task, as it is. -/
theorem pool_close_all_exact (s : St) (h : Reachable step pinit s) :
    ∃ s', step s .closeAll = .ok s' ∧ s'.free = [] ∧ s'.freeCount = 0 ∧
      (∀ t, parked (s.thr t) → s'.thr t = { s.thr t with cmd := .end, sig := true }) ∧
      (∀ t, ¬ parked (s.thr t) → s'.thr t = s.thr t) ∧
      s'.nthr = s.nthr ∧ s'.ntask = s.ntask ∧ s'.began = s.began ∧ s'.ended = s.ended ∧ s'.workCount = s.workCount :=
  closeLoop_spec (inv_of_reachable h) (Nat.lt_succ_self _)

/-- **C29.** `kthread_pool_start` uses the most recently parked thread if there is one, creating no thread; otherwise it creates
one, and it fails only if that is not possible. -/
theorem pool_start_exact (s : St) (h : Reachable step pinit s) (c : Bool) :
    (∀ t, s.free.getLast? = some t → ∃ s', step s (.start c) = .ok s' ∧ s'.nthr = s.nthr ∧ s'.ntask = s.ntask + 1 ∧
      s'.thr t = { s.thr t with cmd := .start, task := s.ntask, sig := true } ∧ s'.free = s.free.dropLast ∧
      s'.refused = s.refused ∧ ∀ u, u ≠ t → s'.thr u = s.thr u) ∧
    (s.free = [] → ∃ s', step s (.start c) = .ok s' ∧ (c = false → s' = { s with refused := s.refused + 1 }) ∧
      (c = true → s'.nthr = s.nthr + 1 ∧ s'.ntask = s.ntask + 1 ∧ (s'.thr s.nthr).pc = .boot ∧ (s'.thr s.nthr).task = s.ntask ∧
        s'.refused = s.refused ∧ ∀ u, u ≠ s.nthr → s'.thr u = s.thr u)) := by
  have hi := inv_of_reachable h
  constructor
  · intro t ht
    refine ⟨giveTask s t, poolStart_old hi ht, rfl, rfl, by simp [giveTask], ?_, rfl, fun u hu => by simp [giveTask, upd_ne _ _ hu]⟩
    obtain ⟨l, hl⟩ := List.getLast?_eq_some_iff.1 ht
    have hnd := hi.nodup
    simp only [giveTask, hl] at *
    rw [List.dropLast_concat, List.erase_append_right _ (by
      rw [List.nodup_append] at hnd
      exact fun hm => hnd.2.2 t hm t (by simp) rfl)]
    simp
  · intro hf
    have hl : s.free.getLast? = none := by rw [hf]; rfl
    refine ⟨_, (poolStart_new hl).trans (by cases c <;> rfl : _ = Res.ok (if c then _ else _)), ?_, ?_⟩
    · rintro rfl; rfl
    · rintro rfl
      exact ⟨rfl, rfl, by simp, by simp, rfl, fun u hu => by simp [upd_ne _ _ hu]⟩

/-- **C29.** No operation touches or signals an ended thread, trips an assertion or loops forever (for `min_free ≥ 0`), and a woken thread always
finds a command. -/
theorem pool_no_failure (s : St) (h : Reachable step pinit s) (o : Op) (ho : ∀ m now, o = .flush m now → 0 ≤ m) : step s o ≠ .ub := by
  intro hu
  have hi := inv_of_reachable h
  cases o with
  | start c =>
    rcases hl : s.free.getLast? with _ | t
    · change poolStart s c = _ at hu
      rw [poolStart_new hl] at hu; cases c <;> cases hu
    · change poolStart s c = _ at hu
      rw [poolStart_old hi hl] at hu; cases hu
  | boot t => simp only [step] at hu; split at hu <;> cases hu
  | ret t n => simp only [step] at hu; split at hu <;> cases hu
  | park t => simp only [step] at hu; split at hu <;> cases hu
  | wake t => simp only [step] at hu; split at hu <;> (try split at hu) <;> cases hu
  | flush m now => obtain ⟨s', k, e, _⟩ := pool_flush_exact s h m now (ho m now rfl); rw [e] at hu; cases hu
  | closeAll => obtain ⟨s', e, _⟩ := pool_close_all_exact s h; rw [e] at hu; cases hu

theorem pool_wake_has_command (s : St) (h : Reachable step pinit s) (t : Nat) (s' : St) (he : step s (.wake t) = .ok s') :
    (s.thr t).cmd = .start ∧ s'.began = s.began ++ [(s.thr t).task] ∨ (s.thr t).cmd = .end ∧ (s'.thr t).pc = .gone := by
  have hi := inv_of_reachable h
  simp only [step] at he
  split at he
  · rename_i hp
    have hcmd := ((hi.sig_iff t).1 hp.2).2
    split at he
    · rename_i hc; cases he; exact .inl ⟨hc, rfl⟩
    · rename_i hc; cases he; exact .inr ⟨hc, by simp⟩
    · rename_i hc; exact absurd hc hcmd
  · cases he

/-- **C29.** No accepted task is lost: as long as some accepted task has not returned, some pool thread can take a step. -/
theorem pool_no_lost_task (s : St) (h : Reachable step pinit s) (k : Nat) (hk : k < s.ntask) (hn : k ∉ s.ended) :
    ∃ o s', isThread o = true ∧ step s o = .ok s' := by
  have hi := inv_of_reachable h
  by_cases hb : k ∈ s.began
  · rcases hi.began_all k hb with h' | ⟨t, ht, _⟩
    · exact absurd h' hn
    · exact ⟨.ret t 0, _, rfl, if_pos ht⟩
  · rcases hi.all k hk with h' | ⟨t, ht, _⟩
    · exact absurd h' hb
    · rcases ht with ht | ⟨ht, hc⟩
      · exact ⟨.boot t, _, rfl, if_pos ht⟩
      · refine ⟨.wake t, { s with thr := upd s.thr t { s.thr t with pc := .running, sig := false }, began := s.began ++ [(s.thr t).task] }, rfl, ?_⟩
        simp only [step]
        rw [if_pos ⟨ht, (hi.sig_iff t).2 ⟨ht, by rw [hc]; decide⟩⟩, hc]

/-- work left to a thread -/
def todo (th : Th) : Nat :=
  match th.pc with
  | .boot => 4 | .running => 3 | .finished => 2
  | .waiting => match th.cmd with | .start => 4 | .end => 1 | .null => if th.sig then 1 else 0
  | _ => 0

def todoSum (f : Nat → Th) : Nat → Nat
  | 0 => 0
  | n + 1 => todoSum f n + todo (f n)

theorem todoSum_out (f : Nat → Th) (n i : Nat) (x : Th) (h : n ≤ i) : todoSum (upd f i x) n = todoSum f n := by
  induction n with
  | zero => rfl
  | succ n ih => simp only [todoSum]; rw [ih (by omega), upd_ne _ _ (by omega)]

theorem todoSum_upd (f : Nat → Th) (n i : Nat) (x : Th) (h : i < n) : todoSum (upd f i x) n + todo (f i) = todoSum f n + todo x := by
  induction n with
  | zero => omega
  | succ n ih =>
    simp only [todoSum]
    rcases Nat.lt_or_ge i n with h' | h'
    · rw [upd_ne f x (by omega : n ≠ i)]; have := ih h'; omega
    · have : i = n := by omega
      subst this
      rw [todoSum_out _ _ _ _ (Nat.le_refl _), upd_same]; omega

theorem todoSum_lt {f : Nat → Th} {n i : Nat} {x : Th} (h : i < n) (hx : todo x < todo (f i)) : todoSum (upd f i x) n < todoSum f n := by
  have := todoSum_upd f n i x h; omega

/-- **C29.** Between two calls from outside the pool's threads take only finitely many steps (so, with `pool_no_lost_task`, every accepted task
returns once if every task function returns). -/
theorem pool_steps_terminate (s s' : St) (h : Reachable step pinit s) (o : Op) (ho : isThread o = true) (he : step s o = .ok s') :
    todoSum s'.thr s'.nthr < todoSum s.thr s.nthr := by
  have hi := inv_of_reachable h
  cases o with
  | start c => cases ho
  | flush m now => cases ho
  | closeAll => cases ho
  | boot t =>
    simp only [step] at he
    split at he
    · rename_i hp; cases he; exact todoSum_lt (hi.lt (by rw [hp]; decide)) (by simp [todo, hp])
    · cases he
  | ret t now =>
    simp only [step] at he
    split at he
    · rename_i hp; cases he; exact todoSum_lt (hi.lt (by rw [hp]; decide)) (by simp [todo, hp])
    · cases he
  | park t =>
    simp only [step] at he
    split at he
    · rename_i hp
      have hsig : (s.thr t).sig = false := by
        cases hs : (s.thr t).sig
        · rfl
        · have := ((hi.sig_iff t).1 hs).1; rw [hp] at this; cases this
      cases he; exact todoSum_lt (hi.lt (by rw [hp]; decide)) (by simp [todo, hp, hsig])
    · cases he
  | wake t =>
    simp only [step] at he
    split at he
    · rename_i hp
      have hl := hi.lt (t := t) (by rw [hp.1]; decide)
      split at he <;> rename_i hc <;> cases he <;> exact todoSum_lt hl (by simp [todo, hp.1, hp.2, hc])
    · cases he

/-! ## Non-vacuity and findings -/

/-- two threads, three tasks; the second thread is reused, the first is closed for being idle, then the second too -/
def demoOps : List Op :=
  [.start true, .boot 0, .start true, .ret 0 10, .boot 1, .park 0, .ret 1 50, .park 1, .start false, .flush 0 71, .wake 0, .wake 1,
   .ret 1 80, .park 1, .closeAll, .wake 1]

example : (run step pinit demoOps).map (fun s => (s.began, s.ended, s.nthr, s.free, s.freeCount, s.workCount)) =
    some ([0, 1, 2], [0, 1, 2], 2, [], 0, 0) := by rfl

example : (run step pinit demoOps).map (fun s => ((s.thr 0).pc, (s.thr 1).pc)) = some (.gone, .gone) := by rfl

/-- **Finding (C29).** `kthread_flush` with a negative minimum fails its assertion when no thread is parked: it tests
`free_thread_count > 0` where the list is known to be empty. -/
theorem pool_flush_negative_asserts : step pinit (.flush (-1) 0) = .ub := by rfl

end Kasync.ThrPool
