import Verif.Fiber.RemoteTac

/-! # Steps of the invariant of C58: other activity and calls to the pool -/

namespace Kasync.Remote

theorem inv_suspend {s : St} {x c : Nat} (hi : Inv s) (hr : (s.fib c).st = .run) {l : List Nat} (hs : s.stack x = c :: l) :
    Inv ((s.upd c (fun f => { f with st := .away })).setStack x l) := by
  have hf : flight ((s.upd c (fun f => { f with st := .away })).setStack x l) = flight s := rfl
  have hnd := hi.loc.nd
  inv_tac hi hf hnd

theorem inv_spawn {s : St} {x c : Nat} (hi : Inv s) (hr : (s.fib c).st = .none) :
    Inv ((s.upd c (fun _ => { st := .run, sel := x, ref := 1 })).push x c) := by
  have := hi.loc.new c hr
  have hf : flight ((s.upd c (fun _ => { st := .run, sel := x, ref := 1 })).push x c) = flight s := rfl
  have hnd := hi.loc.nd
  inv_tac hi hf hnd

theorem inv_resume {s : St} {x c : Nat} {v : Int} (hi : Inv s) (hr : (s.fib c).st = .away) (hx : (s.fib c).sel = x) :
    Inv ((s.upd c (fun f => { f with st := .run, retval := v })).push x c) := by
  have hf : flight ((s.upd c (fun f => { f with st := .run, retval := v })).push x c) = flight s := rfl
  have hnd := hi.loc.nd
  inv_tac hi hf hnd

theorem inv_callNo {s : St} {c : Nat} (hi : Inv s) (hr : (s.fib c).st = .run) (fn arg : Nat) (n : Int) :
    Inv { s.upd c (fun f => { f with start := fn, arg := arg, retval := n, call := s.next }) with
      next := s.next + 1, hist := s.hist ++ [.called s.next (.fib c) .pool fn arg n, .refused s.next] } := by
  have hf : flight { s.upd c (fun f => { f with start := fn, arg := arg, retval := n, call := s.next }) with
      next := s.next + 1, hist := s.hist ++ [.called s.next (.fib c) .pool fn arg n, .refused s.next] } = flight s := rfl
  have hnd := hi.loc.nd
  invl_tac hi hf hnd

theorem inv_callWait {s : St} {x c : Nat} (hi : Inv s) (hr : (s.fib c).st = .armed) {l : List Nat} (hs : s.stack x = c :: l) :
    Inv ((s.upd c (fun f => { f with st := .waitCall, code := .arg f.arg })).setStack x l) := by
  have hf : flight ((s.upd c (fun f => { f with st := .waitCall, code := .arg f.arg })).setStack x l) = flight s := rfl
  have hnd := hi.loc.nd
  inv_tac hi hf hnd

/-- a fiber that is not suspended in a call here is not in flight -/
theorem not_flight {s : St} (hi : Inv s) {c : Nat} (h : ¬ calling (s.fib c).st) (h1 : (s.fib c).st ≠ .fresh)
    (h2 : ∀ g, (s.fib c).st ≠ .waitJoin g) : c ∉ flight s := by
  intro hc
  simp only [flight, List.mem_append, List.mem_map] at hc
  rcases hc with ⟨m, hm, rfl⟩ | hc | ⟨q, hq, rfl⟩
  · have := hi.loc.inb m hm; grind
  · exact h (hi.loc.job c hc)
  · exact h (hi.loc.wrk q hq).1

theorem inv_call {s : St} {c : Nat} (hi : Inv s) (hr : (s.fib c).st = .run) (fn arg : Nat) (n : Int) :
    Inv { s.upd c (fun f => { f with start := fn, arg := arg, retval := n, call := s.next, st := .armed }) with
      jobs := s.jobs ++ [c], next := s.next + 1, hist := s.hist ++ [.called s.next (.fib c) .pool fn arg n] } := by
  have hc : c ∉ flight s := not_flight hi (by simp [hr, calling]) (by simp [hr]) (by simp [hr])
  have hp : (flight { s.upd c (fun f => { f with start := fn, arg := arg, retval := n, call := s.next, st := .armed }) with
      jobs := s.jobs ++ [c], next := s.next + 1, hist := s.hist ++ [.called s.next (.fib c) .pool fn arg n] }).Perm (c :: flight s) := by
    simp only [flight, St.upd]
    rw [List.append_assoc, List.singleton_append, ← List.append_assoc, ← List.append_assoc]
    exact List.perm_middle
  have hnd := hp.nodup_iff.2 (List.nodup_cons.2 ⟨hc, hi.loc.nd⟩)
  have hf := fun i => hp.mem_iff (a := i)
  simp only [List.mem_cons] at hf
  invl_tac hi hf hnd

theorem inv_enter {s : St} {c : Nat} (hi : Inv s) (hc : c ∈ s.jobs) :
    Inv { s with hist := s.hist ++ [.entered (s.fib c).call .pool (s.fib c).start (s.fib c).arg (s.fib c).retval], jobs := s.jobs.erase c, workers := s.workers ++ [(c, (s.fib c).call)] } := by
  obtain ⟨h1, h2, h3, h4⟩ := job_facts hi hc
  have hp : (flight { s with hist := s.hist ++ [.entered (s.fib c).call .pool (s.fib c).start (s.fib c).arg (s.fib c).retval], jobs := s.jobs.erase c, workers := s.workers ++ [(c, (s.fib c).call)] }).Perm
      (c :: (s.inbox.map (·.fib) ++ (s.jobs.erase c ++ s.workers.map (·.1)))) := by
    simp only [flight]
    rw [List.map_append, ← List.append_assoc, ← List.append_assoc]
    exact List.perm_middle.trans (by simp)
  have hnd := hp.nodup_iff.2 h4
  have hf : ∀ i, i ∈ flight { s with hist := s.hist ++ [.entered (s.fib c).call .pool (s.fib c).start (s.fib c).arg (s.fib c).retval], jobs := s.jobs.erase c, workers := s.workers ++ [(c, (s.fib c).call)] } ↔ i ∈ flight s := by
    intro i
    rw [hp.mem_iff]
    simp only [flight, List.mem_cons, List.mem_append, h1]
    by_cases e : i = c <;> grind
  generalize s.jobs.erase c = W at *
  clear h4 hp
  invl_tac hi hf hnd

theorem inv_leave {s : St} {c k : Nat} {v : Int} (hi : Inv s) (hw : (c, k) ∈ s.workers) :
    Inv { s with hist := s.hist ++ [.left k v], workers := s.workers.erase (c, k), inbox := s.inbox ++ [⟨(s.fib c).sel, c, .arg (s.fib c).arg, v⟩] } := by
  obtain ⟨h1, h2, h3, h4⟩ := wrk_facts hi hw
  have hp : (flight { s with hist := s.hist ++ [.left k v], workers := s.workers.erase (c, k), inbox := s.inbox ++ [⟨(s.fib c).sel, c, .arg (s.fib c).arg, v⟩] }).Perm
      (c :: (s.inbox.map (·.fib) ++ (s.jobs ++ (s.workers.erase (c, k)).map (·.1)))) := by
    simp only [flight]
    rw [List.map_append, List.append_assoc]
    exact List.perm_middle
  have hnd := hp.nodup_iff.2 h4
  have hf : ∀ i, i ∈ flight { s with hist := s.hist ++ [.left k v], workers := s.workers.erase (c, k), inbox := s.inbox ++ [⟨(s.fib c).sel, c, .arg (s.fib c).arg, v⟩] } ↔ i ∈ flight s := by
    intro i
    rw [hp.mem_iff]
    simp only [flight, List.mem_cons, List.mem_append, List.mem_map, h1]
    by_cases e : i = c <;> grind
  generalize s.workers.erase (c, k) = W at *
  clear h4 hp
  invl_tac hi hf hnd
end Kasync.Remote
