import Verif.Fiber.RemoteStep1

/-! # Steps of the invariant of C58: posting and delivering wake-ups, creating fibers -/

namespace Kasync.Remote

/-- taking a message out of the inbox -/
theorem inb_flight {s : St} (hi : Inv s) {m : Msg} (hm : m ∈ s.inbox) :
    ((s.inbox.erase m).map (·.fib) ++ (s.jobs ++ s.workers.map (·.1))).Nodup ∧
    ∀ i, i ∈ ((s.inbox.erase m).map (·.fib) ++ (s.jobs ++ s.workers.map (·.1))) ↔ i ∈ flight s ∧ i ≠ m.fib := by
  obtain ⟨h1, h2, h3, h4⟩ := inb_facts hi hm
  refine ⟨(List.nodup_cons.1 h4).2, fun i => ?_⟩
  have := (List.nodup_cons.1 h4).1
  simp only [flight, List.mem_append, List.mem_map, h1] at this ⊢
  by_cases e : i = m.fib <;> grind

theorem inv_deliverStart {s : St} (hi : Inv s) {m : Msg} (hm : m ∈ s.inbox) (hr : (s.fib m.fib).st = .fresh) (ho : (s.fib m.fib).own = none) :
    Inv { s.upd m.fib (fun f => { f with st := .run, retval := m.val }) with
      inbox := s.inbox.erase m, stack := fun y => if y = m.sel then m.fib :: s.stack m.sel else s.stack y } := by
  obtain ⟨h1, h2, h3, h4⟩ := inb_facts hi hm
  obtain ⟨hnd, hf'⟩ := inb_flight hi hm
  have hf : ∀ i, i ∈ flight { s.upd m.fib (fun f => { f with st := .run, retval := m.val }) with inbox := s.inbox.erase m, stack := fun y => if y = m.sel then m.fib :: s.stack m.sel else s.stack y } ↔ i ∈ flight s ∧ i ≠ m.fib := hf'
  have hsel := (hi.loc.inb m hm).1
  clear hf' h4
  generalize s.inbox.erase m = W at *
  inv_tac hi hf hnd

theorem inv_deliverStartK {s : St} (hi : Inv s) {m : Msg} (hm : m ∈ s.inbox) (hr : (s.fib m.fib).st = .fresh) {k : Nat} (ho : (s.fib m.fib).own = some k) :
    Inv { s.upd m.fib (fun f => { f with st := .run, retval := m.val }) with
      inbox := s.inbox.erase m, stack := fun y => if y = m.sel then m.fib :: s.stack m.sel else s.stack y,
      hist := s.hist ++ [.entered k (.sel (s.fib m.fib).sel) (s.fib m.fib).start (s.fib m.fib).arg m.val] } := by
  obtain ⟨h1, h2, h3, h4⟩ := inb_facts hi hm
  obtain ⟨hnd, hf'⟩ := inb_flight hi hm
  have hf : ∀ i, i ∈ flight { s.upd m.fib (fun f => { f with st := .run, retval := m.val }) with inbox := s.inbox.erase m, stack := fun y => if y = m.sel then m.fib :: s.stack m.sel else s.stack y, hist := s.hist ++ [.entered k (.sel (s.fib m.fib).sel) (s.fib m.fib).start (s.fib m.fib).arg m.val] } ↔ i ∈ flight s ∧ i ≠ m.fib := hf'
  have hsel := (hi.loc.inb m hm).1
  clear hf' h4
  generalize s.inbox.erase m = W at *
  invl_tac hi hf hnd

theorem inv_deliverCall {s : St} (hi : Inv s) {m : Msg} (hm : m ∈ s.inbox) (hr : (s.fib m.fib).st = .waitCall) :
    Inv { s.upd m.fib (fun f => { f with st := .run, retval := m.val }) with
      inbox := s.inbox.erase m, stack := fun y => if y = m.sel then m.fib :: s.stack m.sel else s.stack y,
      hist := s.hist ++ [.returned (s.fib m.fib).call m.val] } := by
  obtain ⟨h1, h2, h3, h4⟩ := inb_facts hi hm
  obtain ⟨hnd, hf'⟩ := inb_flight hi hm
  have hf : ∀ i, i ∈ flight { s.upd m.fib (fun f => { f with st := .run, retval := m.val }) with inbox := s.inbox.erase m, stack := fun y => if y = m.sel then m.fib :: s.stack m.sel else s.stack y, hist := s.hist ++ [.returned (s.fib m.fib).call m.val] } ↔ i ∈ flight s ∧ i ≠ m.fib := hf'
  have hsel := (hi.loc.inb m hm).1
  clear hf' h4
  generalize s.inbox.erase m = W at *
  invl_tac hi hf hnd

theorem inv_deliverJoin {s : St} (hi : Inv s) {m : Msg} (hm : m ∈ s.inbox) {h : Nat} (hr : (s.fib m.fib).st = .waitJoin h) :
    Inv { s.upd m.fib (fun f => { f with st := .joined h, retval := m.val }) with
      inbox := s.inbox.erase m, stack := fun y => if y = m.sel then m.fib :: s.stack m.sel else s.stack y } := by
  obtain ⟨h1, h2, h3, h4⟩ := inb_facts hi hm
  obtain ⟨hnd, hf'⟩ := inb_flight hi hm
  have hf : ∀ i, i ∈ flight { s.upd m.fib (fun f => { f with st := .joined h, retval := m.val }) with inbox := s.inbox.erase m, stack := fun y => if y = m.sel then m.fib :: s.stack m.sel else s.stack y } ↔ i ∈ flight s ∧ i ≠ m.fib := hf'
  have hsel := (hi.loc.inb m hm).1
  have hfl : m.fib ∈ flight s := List.mem_append.2 (.inl (List.mem_map.2 ⟨m, hm, rfl⟩))
  clear hf' h4
  generalize s.inbox.erase m = W at *
  inv_tac hi hf hnd

theorem inv_refused {s : St} (hi : Inv s) (w : Caller) (p : Place) (fn arg : Nat) (n : Int) :
    Inv { s with next := s.next + 1, hist := s.hist ++ [.called s.next w p fn arg n, .refused s.next] } := by
  have hf : flight { s with next := s.next + 1, hist := s.hist ++ [.called s.next w p fn arg n, .refused s.next] } = flight s := rfl
  have hnd := hi.loc.nd
  invl_tac hi hf hnd

set_option maxHeartbeats 2000000 in
/-- a new fiber started by a posted wake-up -/
theorem inv_post {s : St} (hi : Inv s) {g : Nat} (hg : (s.fib g).st = .none) (w : Caller) (t fn arg : Nat) (n : Int) (fl : Option Flav)
    (hfl : ∀ x, fl = some x → (∃ c, w = .fib c ∧ x = .ts) ∨ (∃ p, w = .thr p ∧ x = .sync)) :
    Inv { s.upd g (fun _ => mkFib t fn arg fl w s.next) with
      next := s.next + 1, hist := s.hist ++ [.called s.next w (.sel t) fn arg n], inbox := s.inbox ++ [⟨t, g, .null, n⟩] } := by
  have hc : g ∉ flight s := not_flight hi (by simp [hg, calling]) (by simp [hg]) (by simp [hg])
  have hp : (flight { s.upd g (fun _ => mkFib t fn arg fl w s.next) with next := s.next + 1, hist := s.hist ++ [.called s.next w (.sel t) fn arg n], inbox := s.inbox ++ [⟨t, g, .null, n⟩] }).Perm (g :: flight s) := by
    simp only [flight, St.upd]
    rw [List.map_append, List.append_assoc]
    exact List.perm_middle
  have hnd := hp.nodup_iff.2 (List.nodup_cons.2 ⟨hc, hi.loc.nd⟩)
  have hf := fun i => hp.mem_iff (a := i)
  simp only [List.mem_cons] at hf
  have hnew := hi.loc.new g hg
  have hfi : ∀ m ∈ s.inbox, m.fib ≠ g := fun m hm e => hc (List.mem_append.2 (.inl (List.mem_map.2 ⟨m, hm, e⟩)))
  clear hp
  simp only [mkFib] at hf hnd ⊢
  cases fl with
  | none =>
    simp only [Option.isSome_none, Bool.false_eq_true, if_false] at hf hnd ⊢
    refine ⟨?_, ?_, ?_⟩
    · loc_tac hi hf hnd
    · jn_tac hi hf hnd
    · have hfut := hi.hs.fut
      have hfr0 := hi.hs.hfr
      have how4 := hi.hs.ow4
      hslx_tac hi hf hnd
      intro m hm
      by_cases e : m.fib = g
      · have hm' : m = ⟨t, g, .null, n⟩ := by
          rcases List.mem_append.1 hm with h | h
          · exact absurd e (hfi m h)
          · simpa using h
        subst hm'
        intro _ k hk
        simp only [if_pos, Option.some.injEq] at hk ⊢
        subst hk
        refine ⟨w, ?_⟩
        simp [hfut s.next (Nat.le_refl _)]
      · simp only [if_neg e]
        have hm' : m ∈ s.inbox := by
          rcases List.mem_append.1 hm with h | h
          · exact h
          · simp at h; subst h; exact absurd rfl e
        intro h1 k hk
        have h2 := how4 _ _ hk
        obtain ⟨w', h3⟩ := hfr0 m hm' h1 k hk
        refine ⟨w', ?_⟩
        simpa [Nat.ne_of_gt h2] using h3

  | some x =>
    have := hfl x rfl
    clear hfl
    simp only [Option.isSome_some, if_true] at hf hnd ⊢
    refine ⟨?_, ?_, ?_⟩
    · loc_tac hi hf hnd
    · jn_tac hi hf hnd
    · have hfut := hi.hs.fut
      have hfr0 := hi.hs.hfr
      have how4 := hi.hs.ow4
      hslx_tac hi hf hnd
      intro m hm
      by_cases e : m.fib = g
      · have hm' : m = ⟨t, g, .null, n⟩ := by
          rcases List.mem_append.1 hm with h | h
          · exact absurd e (hfi m h)
          · simpa using h
        subst hm'
        intro _ k hk
        simp only [if_pos, Option.some.injEq] at hk ⊢
        subst hk
        refine ⟨w, ?_⟩
        simp [hfut s.next (Nat.le_refl _)]
      · simp only [if_neg e]
        have hm' : m ∈ s.inbox := by
          rcases List.mem_append.1 hm with h | h
          · exact h
          · simp at h; subst h; exact absurd rfl e
        intro h1 k hk
        have h2 := how4 _ _ hk
        obtain ⟨w', h3⟩ := hfr0 m hm' h1 k hk
        refine ⟨w', ?_⟩
        simpa [Nat.ne_of_gt h2] using h3


set_option maxHeartbeats 2000000 in
/-- a new fiber of the same selector, started at once -/
theorem inv_nested {s : St} (hi : Inv s) {g : Nat} (hg : (s.fib g).st = .none) (c t fn arg : Nat) (n : Int) (hd : Bool) :
    Inv { s.upd g (fun _ => { mkFib t fn arg (if hd then some .ts else none) (.fib c) s.next with st := .run, retval := n }) with
      next := s.next + 1, stack := fun y => if y = t then g :: s.stack t else s.stack y,
      hist := s.hist ++ [.called s.next (.fib c) (.sel t) fn arg n, .entered s.next (.sel t) fn arg n] } := by
  have hc : g ∉ flight s := not_flight hi (by simp [hg, calling]) (by simp [hg]) (by simp [hg])
  have hf : flight { s.upd g (fun _ => { mkFib t fn arg (if hd then some .ts else none) (.fib c) s.next with st := .run, retval := n }) with next := s.next + 1, stack := fun y => if y = t then g :: s.stack t else s.stack y, hist := s.hist ++ [.called s.next (.fib c) (.sel t) fn arg n, .entered s.next (.sel t) fn arg n] } = flight s := rfl
  have hnd := hi.loc.nd
  have hnew := hi.loc.new g hg
  have hfi : ∀ m ∈ s.inbox, m.fib ≠ g := fun m hm e => hc (List.mem_append.2 (.inl (List.mem_map.2 ⟨m, hm, e⟩)))
  simp only [mkFib] at hf ⊢
  cases hd with
  | false =>
    simp only [Option.isSome_none, Bool.false_eq_true, if_false] at hf ⊢
    refine ⟨?_, ?_, ?_⟩
    · loc_tac hi hf hnd
    · jn_tac hi hf hnd
    · have hfut := hi.hs.fut
      have hac0 := hi.hs.hac
      have how4 := hi.hs.ow4
      hslx_tac hi hf hnd
      intro g' k hk ha
      by_cases e : g' = g
      · subst e
        simp only [if_pos, Option.some.injEq] at hk ⊢
        subst hk
        exact ⟨.fib c, fn, arg, n, by simp [hfut s.next (Nat.le_refl _)]⟩
      · simp only [if_neg e] at hk ha ⊢
        have h2 := how4 _ _ hk
        simpa [Nat.ne_of_gt h2] using hac0 _ _ hk ha

  | true =>
    simp only [Option.isSome_some, if_true] at hf ⊢
    refine ⟨?_, ?_, ?_⟩
    · loc_tac hi hf hnd
    · jn_tac hi hf hnd
    · have hfut := hi.hs.fut
      have hac0 := hi.hs.hac
      have how4 := hi.hs.ow4
      hslx_tac hi hf hnd
      intro g' k hk ha
      by_cases e : g' = g
      · subst e
        simp only [if_pos, Option.some.injEq] at hk ⊢
        subst hk
        exact ⟨.fib c, fn, arg, n, by simp [hfut s.next (Nat.le_refl _)]⟩
      · simp only [if_neg e] at hk ha ⊢
        have h2 := how4 _ _ hk
        simpa [Nat.ne_of_gt h2] using hac0 _ _ hk ha


end Kasync.Remote
