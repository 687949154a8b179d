import Verif.Sync.RWLock

/-! # Property theorems for the fiber read-write lock: C18, C19 -/

namespace Kasync.RWLock

/-- bookkeeping invariant -/
structure Inv (s : State) : Prop where
  /-- writers own the lock iff `cnt = -1` -/
  neg : s.cnt < 0 → s.cnt = -1 ∧ s.whold.length + s.wgrant.length = 1 ∧ s.rhold = [] ∧ s.rgrant = [] ∧ s.waking = []
  nonneg : 0 ≤ s.cnt → s.whold = [] ∧ s.wgrant = [] ∧ s.cnt = (s.rhold.length : Int) + s.rgrant.length
  readers_wait : s.reader ≠ [] → s.cnt < 0 ∨ s.writer ≠ []
  writers_wait : s.writer ≠ [] → s.cnt ≠ 0 ∨ s.waking ≠ []
  waking_owner : s.waking ≠ [] → s.owner ≠ none
  /-- while the loop of `wunlock` runs nobody else got in; if its list is empty something was woken -/
  waking_cnt : s.owner ≠ none → 0 ≤ s.cnt ∧ s.reader = []

theorem Inv.init : Inv RWLock.init := by
  constructor <;> simp [RWLock.init]

theorem tryWakeupWriter_inv {s : State} (h0 : s.cnt = 0) (hr : s.rhold = []) (hrg : s.rgrant = [])
    (hw : s.whold = []) (hwg : s.wgrant = []) (hk : s.waking = []) (ho : s.owner = none)
    (hrd : s.reader ≠ [] → s.writer ≠ []) :
    Inv (tryWakeupWriter s) := by
  unfold tryWakeupWriter
  cases hws : s.writer with
  | nil =>
    have : s.reader = [] := by
      by_cases h : s.reader = []
      · exact h
      · exact absurd hws (hrd h)
    constructor <;> simp_all
  | cons w ws => constructor <;> simp_all

theorem enter_ok {s : State} {me : Nat} {k : Res State} {s' : State} (h : enter s me k = .ok s') :
    s.owner = none ∧ k = .ok s' := by
  unfold enter at h
  split at h
  · exact ⟨by assumption, h⟩
  · split at h <;> cases h

theorem Inv.step {sel : Nat → Nat} {s s' : State} {o : Op} (h : Inv s) (hs : step sel s o = .ok s') : Inv s' := by
  obtain ⟨h1, h2, h3, h4, h5, h6⟩ := h
  cases o with
  | rlock f =>
    simp only [RWLock.step] at hs
    split at hs
    · obtain ⟨ho, hs⟩ := enter_ok hs
      have hk : s.waking = [] := by
        by_cases h : s.waking = []
        · exact h
        · exact absurd ho (h5 h)
      split at hs
      · rename_i hc
        cases hs
        refine ⟨h1, h2, ?_, h4, h5, by simp [ho]⟩
        intro _; exact hc
      · rename_i hc
        simp only [not_or, Int.not_lt, ne_eq, Decidable.not_not] at hc
        cases hs
        obtain ⟨a, b, c⟩ := h2 hc.1
        refine ⟨by simp only; omega, ?_, ?_, ?_, h5, ?_⟩
        · intro _
          refine ⟨a, b, by simp only [List.length_cons]; omega⟩
        · intro hr; exact (h3 hr).imp (by simp only; omega) id
        · intro hw; exact absurd hc.2 hw
        · simp [ho]
    · cases hs
  | wlock f =>
    simp only [RWLock.step] at hs
    split at hs
    · obtain ⟨ho, hs⟩ := enter_ok hs
      split at hs
      · rename_i hc
        cases hs
        exact ⟨h1, h2, fun hr => .inr (by simp), fun _ => .inl hc, h5, by simp [ho]⟩
      · rename_i hc
        simp only [ne_eq, Decidable.not_not] at hc
        cases hs
        obtain ⟨a, b, c⟩ := h2 (by omega)
        have hk : s.waking = [] := by
          by_cases h : s.waking = []
          · exact h
          · exact absurd ho (h5 h)
        refine ⟨?_, by simp, fun _ => .inl (by simp), fun _ => .inl (by simp), h5, by simp [ho]⟩
        intro _
        have hl : s.rhold.length = 0 := by omega
        have hl2 : s.rgrant.length = 0 := by omega
        exact ⟨rfl, by simp [a, b], List.length_eq_zero_iff.1 hl, List.length_eq_zero_iff.1 hl2, hk⟩
    · cases hs
  | runlock f =>
    simp only [RWLock.step] at hs
    split at hs
    · rename_i hf
      obtain ⟨ho, hs⟩ := enter_ok hs
      have hk : s.waking = [] := by
        by_cases h : s.waking = []
        · exact h
        · exact absurd ho (h5 h)
      have hlen := List.length_erase_of_mem hf
      have hpos := List.length_pos_of_mem hf
      split at hs
      · rename_i hc
        obtain ⟨a, b, c⟩ := h2 (by omega)
        split at hs
        · rename_i hz
          cases hs
          have hl : s.rhold.length = 1 := by omega
          have hl2 : s.rgrant.length = 0 := by omega
          refine tryWakeupWriter_inv (by simpa using hz) (List.length_eq_zero_iff.1 (by show (s.rhold.erase f).length = 0; omega))
            (List.length_eq_zero_iff.1 hl2) a b hk ho ?_
          intro hr; rcases h3 hr with h | h
          · omega
          · exact h
        · rename_i hz
          cases hs
          refine ⟨by simp only; omega, ?_, ?_, ?_, h5, by simp [ho]⟩
          · intro _
            exact ⟨a, b, by simp only; omega⟩
          · intro hr; rcases h3 hr with h | h
            · omega
            · exact .inr h
          · intro _; exact .inl hz
      · cases hs
    · cases hs
  | wunlock f =>
    simp only [RWLock.step] at hs
    split at hs
    · rename_i hf
      obtain ⟨ho, hs⟩ := enter_ok hs
      have hlen := List.length_erase_of_mem hf
      have hpos := List.length_pos_of_mem hf
      split at hs
      · rename_i hc
        obtain ⟨_, a, b, c, d⟩ := h1 (by omega)
        have e1 : s.whold.erase f = [] := List.length_eq_zero_iff.1 (by omega)
        have e2 : s.wgrant = [] := List.length_eq_zero_iff.1 (by omega)
        split at hs
        · rename_i hr
          cases hs
          refine ⟨by simp, ?_, by simp, ?_, by simp, by simp⟩
          · intro _; exact ⟨e1, e2, by simp [b, c]⟩
          · intro _; exact .inr hr
        · rename_i hr
          simp only [ne_eq, Decidable.not_not] at hr
          cases hs
          apply tryWakeupWriter_inv <;> simp_all
      · cases hs
    · cases hs
  | wakeNext =>
    simp only [RWLock.step] at hs
    split at hs
    · rename_i o w ws ho hk
      have hge := (h6 (by simp [ho])).1
      have hrd := (h6 (by simp [ho])).2
      obtain ⟨a, b, c⟩ := h2 hge
      split at hs
      · cases hs
        refine ⟨by simp only; omega, ?_, ?_, ?_, by simp [ho], ?_⟩
        · intro _; exact ⟨a, b, by simp only [List.length_cons]; omega⟩
        · intro hr; exact absurd hrd hr
        · intro _; left; simp only; omega
        · intro _; exact ⟨by simp only; omega, hrd⟩
      · cases hs
        refine ⟨by simp only; omega, ?_, ?_, ?_, by simp [ho], ?_⟩
        · intro _; exact ⟨a, b, by simp only [List.length_cons]; omega⟩
        · intro hr; exact absurd hrd hr
        · intro _; left; simp only; omega
        · intro _; exact ⟨by simp only; omega, hrd⟩
    · cases hs
  | wakeDone =>
    simp only [RWLock.step] at hs
    split at hs
    · rename_i o ho hk
      cases hs
      refine ⟨h1, h2, h3, h4, by simp [hk], by simp⟩
    · cases hs
  | resumeR f =>
    simp only [RWLock.step] at hs
    split at hs
    · rename_i hf
      have hlen := List.length_erase_of_mem hf
      have hpos := List.length_pos_of_mem hf
      cases hs
      refine ⟨?_, ?_, h3, h4, h5, h6⟩
      · intro hc
        obtain ⟨_, _, _, d, _⟩ := h1 hc
        rw [d] at hf; cases hf
      · intro hc
        obtain ⟨a, b, c⟩ := h2 hc
        exact ⟨a, b, by simp only [List.length_cons]; omega⟩
    · cases hs
  | resumeW f =>
    simp only [RWLock.step] at hs
    split at hs
    · rename_i hf
      have hlen := List.length_erase_of_mem hf
      have hpos := List.length_pos_of_mem hf
      cases hs
      refine ⟨?_, ?_, h3, h4, h5, h6⟩
      · intro hc
        obtain ⟨a, b, c, d, e⟩ := h1 hc
        exact ⟨a, by simp only [List.length_cons]; omega, c, d, e⟩
      · intro hc
        obtain ⟨a, b, c⟩ := h2 hc
        rw [b] at hf; cases hf
    · cases hs

theorem Inv.reachable {sel : Nat → Nat} {s : State} (h : Reachable (RWLock.step sel) RWLock.init s) : Inv s :=
  h.invariant Inv.init (fun _ _ _ hi he => hi.step he)

/-- **C18.** Whatever fibers on whatever selectors do: a fiber holding for writing excludes every reader and
every other writer. -/
theorem rwlock_exclusion (sel : Nat → Nat) (s : State) (h : Reachable (step sel) init s) :
    (s.whold ≠ [] → s.whold.length = 1 ∧ s.rhold = [] ∧ s.rgrant = [] ∧ s.wgrant = []) ∧
    (s.rhold ≠ [] → s.whold = [] ∧ s.wgrant = []) := by
  have hi := Inv.reachable h
  constructor
  · intro hw
    by_cases hc : s.cnt < 0
    · obtain ⟨_, a, b, c, _⟩ := hi.neg hc
      have : 0 < s.whold.length := List.length_pos_iff.2 hw
      exact ⟨by omega, b, c, List.length_eq_zero_iff.1 (by omega)⟩
    · exact absurd (hi.nonneg (by omega)).1 hw
  · intro hr
    by_cases hc : s.cnt < 0
    · exact absurd (hi.neg hc).2.2.1 hr
    · exact ⟨(hi.nonneg (by omega)).1, (hi.nonneg (by omega)).2.1⟩

/-- **C19.** When nobody holds the lock, no wake-up is pending and no `wunlock` is in progress, nobody waits. -/
theorem rwlock_no_lost_wakeup (sel : Nat → Nat) (s : State) (h : Reachable (step sel) init s)
    (h1 : s.rhold = []) (h2 : s.whold = []) (h3 : s.rgrant = []) (h4 : s.wgrant = []) (h5 : s.waking = []) :
    s.reader = [] ∧ s.writer = [] := by
  have hi := Inv.reachable h
  have hc : s.cnt = 0 := by
    by_cases hc : s.cnt < 0
    · have := (hi.neg hc).2.1; simp [h2, h4] at this
    · have := (hi.nonneg (by omega)).2.2; simp [h1, h3] at this; exact this
  have hw : s.writer = [] := by
    by_cases h : s.writer = []
    · exact h
    · rcases hi.writers_wait h with h | h
      · exact absurd hc h
      · exact absurd h5 h
  refine ⟨?_, hw⟩
  by_cases h : s.reader = []
  · exact h
  · rcases hi.readers_wait h with h | h
    · omega
    · exact absurd hw h

/-- **C19.** A reader waits only while a writer owns the lock or waits for it. -/
theorem rwlock_reader_waits_for_writer (sel : Nat → Nat) (s : State) (h : Reachable (step sel) init s)
    (hr : s.reader ≠ []) : s.whold ≠ [] ∨ s.wgrant ≠ [] ∨ s.writer ≠ [] := by
  have hi := Inv.reachable h
  rcases hi.readers_wait hr with hc | hc
  · have := (hi.neg hc).2.1
    by_cases hw : s.whold = []
    · right; left; intro h0; simp [hw, h0] at this
    · exact .inl hw
  · exact .inr (.inr hc)

/-- **C18/C19.** The assertions `cnt > 0` (runlock) and `cnt == -1` (wunlock) never fail, and the internal
mutex is never re-entered, provided no fiber runs on the selector that is executing a `wunlock` loop —
in particular whenever the fibers using the lock live on pairwise different selectors. -/
theorem rwlock_no_failure (sel : Nat → Nat) (s : State) (h : Reachable (step sel) init s) (o : Op)
    (hown : ∀ f, (o = .rlock f ∨ o = .wlock f ∨ o = .runlock f ∨ o = .wunlock f) → s.owner ≠ some (sel f)) :
    step sel s o ≠ .ub := by
  have hi := Inv.reachable h
  have hent : ∀ f k, (o = .rlock f ∨ o = .wlock f ∨ o = .runlock f ∨ o = .wunlock f) → k ≠ .ub →
      enter s (sel f) k ≠ .ub := by
    intro f k hf hk
    unfold enter
    split
    · exact hk
    · rename_i ow ho
      split
      · rename_i he; subst he; exact absurd ho (hown f hf)
      · simp
  cases o with
  | rlock f =>
    simp only [step]; split
    · apply hent f _ (by simp); split <;> simp
    · simp
  | wlock f =>
    simp only [step]; split
    · apply hent f _ (by simp); split <;> simp
    · simp
  | runlock f =>
    simp only [step]; split
    · rename_i hf
      apply hent f _ (by simp)
      have hne : s.rhold ≠ [] := List.ne_nil_of_mem hf
      have hpos := List.length_pos_iff.2 hne
      have hc : 0 < s.cnt := by
        by_cases hc : s.cnt < 0
        · exact absurd (hi.neg hc).2.2.1 hne
        · have := (hi.nonneg (by omega)).2.2; omega
      rw [if_pos hc]; split <;> simp
    · simp
  | wunlock f =>
    simp only [step]; split
    · rename_i hf
      apply hent f _ (by simp)
      have hne : s.whold ≠ [] := List.ne_nil_of_mem hf
      have hc : s.cnt = -1 := by
        by_cases hc : s.cnt < 0
        · exact (hi.neg hc).1
        · exact absurd (hi.nonneg (by omega)).1 hne
      rw [if_pos hc]; split <;> simp
    · simp
  | wakeNext => simp only [step]; split <;> (try split) <;> simp
  | wakeDone => simp only [step]; split <;> simp
  | resumeR f => simp only [step]; split <;> simp
  | resumeW f => simp only [step]; split <;> simp

/-- **C19.** The `wunlock` loop always finishes: from any reachable state the remaining wake-ups and the final
unlock can be executed, after which the internal mutex is free and every reader of the list owns the lock. -/
theorem rwlock_wunlock_completes (sel : Nat → Nat) (s : State) (h : Reachable (step sel) init s)
    (ho : s.owner ≠ none) :
    ∃ s', run (step sel) s (List.replicate s.waking.length .wakeNext ++ [.wakeDone]) = some s' ∧
      s'.owner = none ∧ s'.waking = [] ∧ ∀ f ∈ s.waking, f ∈ s'.rhold ∨ f ∈ s'.rgrant := by
  obtain ⟨o, ho⟩ := Option.ne_none_iff_exists'.1 ho
  clear h
  suffices H : ∀ (n : Nat) (s : State), s.owner = some o → s.waking.length = n →
      ∃ s', run (step sel) s (List.replicate n .wakeNext ++ [.wakeDone]) = some s' ∧
      s'.owner = none ∧ s'.waking = [] ∧ (∀ f ∈ s.waking, f ∈ s'.rhold ∨ f ∈ s'.rgrant) ∧
      (∀ f ∈ s.rhold, f ∈ s'.rhold) ∧ (∀ f ∈ s.rgrant, f ∈ s'.rgrant) by
    obtain ⟨s', a, b, c, d, _⟩ := H s.waking.length s ho rfl
    exact ⟨s', a, b, c, d⟩
  intro n
  induction n with
  | zero =>
    intro s ho hn
    have hk : s.waking = [] := List.length_eq_zero_iff.1 hn
    exact ⟨{ s with owner := none }, by simp [run, step, ho, hk], rfl, hk, by simp [hk], by simp, by simp⟩
  | succ n ih =>
    intro s ho hn
    match hk : s.waking with
    | [] => rw [hk] at hn; simp at hn
    | w :: ws =>
      have hn' : ws.length = n := by rw [hk] at hn; simpa using hn
      by_cases hsel : sel w = o
      · obtain ⟨s', a, b, c, d, e, f⟩ := ih { s with cnt := s.cnt + 1, waking := ws, rhold := w :: s.rhold } ho hn'
        refine ⟨s', ?_, b, c, ?_, ?_, f⟩
        · simp only [List.replicate_succ, List.cons_append, run, step, ho, hk, hsel, if_true]
          rw [ho] at a; exact a
        · intro g hg
          rcases List.mem_cons.1 hg with rfl | hg
          · exact .inl (e _ (by simp))
          · exact d g hg
        · intro g hg; exact e g (by simp [hg])
      · obtain ⟨s', a, b, c, d, e, f⟩ := ih { s with cnt := s.cnt + 1, waking := ws, rgrant := w :: s.rgrant } ho hn'
        refine ⟨s', ?_, b, c, ?_, e, ?_⟩
        · simp only [List.replicate_succ, List.cons_append, run, step, ho, hk, hsel, if_false]
          rw [ho] at a; exact a
        · intro g hg
          rcases List.mem_cons.1 hg with rfl | hg
          · exact .inr (f _ (by simp))
          · exact d g hg
        · intro g hg; exact f g (by simp [hg])

/-- **Finding (C19).** With two fibers on one selector the lock can deadlock its thread: fiber 0 holds for
writing, fiber 1 (same selector) waits for reading; `wunlock` wakes fiber 1 while still owning the internal
mutex, the switch is immediate, and fiber 1's `runlock` locks the mutex its own thread already owns. -/
theorem rwlock_same_selector_deadlock :
    ∃ os s, run (step (fun _ => 0)) init os = some s ∧ 1 ∈ s.rhold ∧ step (fun _ => 0) s (.runlock 1) = .ub :=
  ⟨[.wlock 0, .rlock 1, .wunlock 0, .wakeNext], _, rfl, by decide, by decide⟩

/-- Everybody who has called `rlock` or `wlock` and not yet unlocked: waiting, being woken, woken or holding. -/
def everybody (s : State) : List Nat := s.reader ++ s.writer ++ s.waking ++ s.rhold ++ s.whold ++ s.rgrant ++ s.wgrant

theorem everybody_wakeup (s : State) : (everybody (tryWakeupWriter s)).Perm (everybody s) := by
  unfold tryWakeupWriter
  split
  · exact .refl _
  · next w ws hw =>
    rw [List.perm_iff_count]; intro a
    simp only [everybody, hw, List.count_append, List.count_cons]
    omega

/-- **C18, C19.** Nobody is lost, admitted twice or left in the queue after being admitted: locking adds the caller, unlocking takes it away, and every
other step only moves fibers between waiting, being woken, woken and holding. -/
theorem rwlock_nobody_lost {sel : Nat → Nat} {s s' : State} {o : Op} (h : Reachable (step sel) init s) (hs : step sel s o = .ok s') :
    (everybody s').Perm (match o with
      | .rlock f | .wlock f => f :: everybody s
      | .runlock f | .wunlock f => (everybody s).erase f
      | _ => everybody s) := by
  have cnt : ∀ {f : Nat} {l : List Nat}, f ∈ l → ∀ a, (l.erase f).count a + (if f == a then 1 else 0) = l.count a := by
    intro f l hf a
    have h1 : (l.erase f).count a = l.count a - if f == a then 1 else 0 := List.count_erase
    have h2 : f == a → 0 < l.count a := by
      intro e
      have e : f = a := by simpa using e
      exact e ▸ List.count_pos_iff.2 hf
    split
    · next e => have := h2 e; rw [h1, if_pos e]; omega
    · next e => rw [h1, if_neg e]; omega
  cases o with
  | rlock f =>
    simp only [step] at hs
    split at hs
    · obtain ⟨-, hs⟩ := enter_ok hs
      split at hs <;> injection hs with hs <;> subst hs <;>
      · rw [List.perm_iff_count]; intro a
        simp only [everybody, List.count_append, List.count_cons]
        omega
    · cases hs
  | wlock f =>
    simp only [step] at hs
    split at hs
    · obtain ⟨-, hs⟩ := enter_ok hs
      split at hs <;> injection hs with hs <;> subst hs <;>
      · rw [List.perm_iff_count]; intro a
        simp only [everybody, List.count_append, List.count_cons]
        omega
    · cases hs
  | runlock f =>
    simp only [step] at hs
    split at hs
    · next hf =>
      obtain ⟨-, hs⟩ := enter_ok hs
      have key : (everybody { s with cnt := s.cnt - 1, rhold := s.rhold.erase f }).Perm ((everybody s).erase f) := by
        rw [List.perm_iff_count]; intro a
        have h1 := cnt (f := f) (l := everybody s) (by simp [everybody, hf]) a
        have h2 := cnt hf a
        simp only [everybody, List.count_append] at h1 ⊢
        omega
      split at hs
      · split at hs <;> injection hs with hs <;> subst hs
        · exact (everybody_wakeup _).trans key
        · exact key
      · cases hs
    · cases hs
  | wunlock f =>
    simp only [step] at hs
    split at hs
    · next hf =>
      obtain ⟨ho, hs⟩ := enter_ok hs
      have key : (everybody { s with cnt := 0, whold := s.whold.erase f }).Perm ((everybody s).erase f) := by
        rw [List.perm_iff_count]; intro a
        have h1 := cnt (f := f) (l := everybody s) (by simp [everybody, hf]) a
        have h2 := cnt hf a
        simp only [everybody, List.count_append] at h1 ⊢
        omega
      split at hs
      · next hc =>
        split at hs <;> injection hs with hs <;> subst hs
        · refine List.Perm.trans ?_ key
          have hw : s.waking = [] := by
            by_cases hw : s.waking = []
            · exact hw
            · exact absurd ho ((Inv.reachable h).waking_owner hw)
          rw [List.perm_iff_count]; intro a
          simp only [everybody, hw, List.count_append, List.count_nil]
          omega
        · exact (everybody_wakeup _).trans key
      · cases hs
    · cases hs
  | wakeNext =>
    simp only [step] at hs
    split at hs
    · next w ws _ hw =>
      split at hs <;> injection hs with hs <;> subst hs <;>
      · rw [List.perm_iff_count]; intro a
        simp only [everybody, hw, List.count_append, List.count_cons]
        omega
    · cases hs
  | wakeDone =>
    simp only [step] at hs
    split at hs
    · injection hs with hs; subst hs; exact .refl _
    · cases hs
  | resumeR f =>
    simp only [step] at hs
    split at hs
    · next hf =>
      injection hs with hs; subst hs
      rw [List.perm_iff_count]; intro a
      have h2 := cnt hf a
      simp only [everybody, List.count_append, List.count_cons]
      omega
    · cases hs
  | resumeW f =>
    simp only [step] at hs
    split at hs
    · next hf =>
      injection hs with hs; subst hs
      rw [List.perm_iff_count]; intro a
      have h2 := cnt hf a
      simp only [everybody, List.count_append, List.count_cons]
      omega
    · cases hs

/-- **C18, C19.** A fiber is never in two places: waiting twice, waiting and holding, or holding twice. -/
theorem rwlock_one_role (sel : Nat → Nat) (s : State) (h : Reachable (step sel) init s) : (everybody s).Nodup := by
  induction h with
  | refl => exact List.nodup_nil
  | tail o hr hs ih =>
    refine (rwlock_nobody_lost hr hs).nodup_iff.2 ?_
    cases o with
    | rlock f =>
      simp only [step] at hs
      split at hs
      · next hi => exact List.nodup_cons.2 ⟨by simpa [State.idle, everybody] using hi, ih⟩
      · cases hs
    | wlock f =>
      simp only [step] at hs
      split at hs
      · next hi => exact List.nodup_cons.2 ⟨by simpa [State.idle, everybody] using hi, ih⟩
      · cases hs
    | runlock f => exact ih.erase f
    | wunlock f => exact ih.erase f
    | _ => exact ih

/-! ### Non-vacuity -/

example : ∃ s, Reachable (step (fun f => f)) init s ∧ s.rhold.length = 2 ∧ s.writer.length = 1 ∧ s.reader.length = 1 :=
  ⟨_, reachable_of_run (os := [.rlock 0, .rlock 1, .wlock 2, .rlock 3]) rfl, by decide, by decide, by decide⟩
example : ∃ s, Reachable (step (fun f => f)) init s ∧ s.whold = [2] ∧ s.reader = [3] :=
  ⟨_, reachable_of_run (os := [.rlock 0, .wlock 2, .rlock 3, .runlock 0, .resumeW 2]) rfl, by decide, by decide⟩
example : ∃ s, Reachable (step (fun f => f)) init s ∧ s.owner ≠ none ∧ s.waking.length = 2 :=
  ⟨_, reachable_of_run (os := [.wlock 0, .rlock 1, .rlock 2, .wunlock 0]) rfl, by decide, by decide⟩

end Kasync.RWLock
