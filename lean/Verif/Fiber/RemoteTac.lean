import Verif.Fiber.RemoteInv

/-! # Tactics and list lemmas for the invariant of C58 -/

namespace Kasync.Remote
theorem top_some {s : St} {x c : Nat} (h : top s x = some c) : (s.fib c).st = .run ∧ s.stack x = c :: (s.stack x).tail := by
  unfold top at h
  cases e : s.stack x with
  | nil => simp [e] at h
  | cons a l =>
    simp [e, Option.filter] at h
    obtain ⟨h1, h2⟩ := h
    subst h2; exact ⟨h1, rfl⟩

/-- for steps that leave `flight` alone or say what happens to it in `hf` and `hnd` -/
macro "loc_tac" hi:ident hf:ident hnd:ident : tactic => `(tactic|(
  obtain ⟨nd, inb, job, wrk, fly, snd, stk, cpu, rnd, rdy, rpg, cdc, cdj, new⟩ := ($hi).loc
  constructor
  · exact $hnd
  all_goals (try simp only [$hf:ident])
  all_goals clear nd $hnd $hf
  all_goals (try simp only [St.upd, St.setStack, St.push, St.log] at *)
  all_goals first | assumption | grind [calling, onCpu]))

macro "jn_tac" hi:ident hf:ident hnd:ident : tactic => `(tactic|(
  obtain ⟨nd, inb, job, wrk, fly, snd, stk, cpu, rnd, rdy, rpg, cdc, cdj, new⟩ := ($hi).loc
  obtain ⟨wtr, ofj, oft, wjn, jnd, twt, twk, evd, evo, cnf, cnt, ref, frd⟩ := ($hi).jn
  constructor
  all_goals (try simp only [$hf:ident])
  all_goals clear nd $hnd $hf snd rnd stk cpu rdy rpg cdc cdj wrk job inb
  all_goals (try simp only [St.upd, St.setStack, St.push, St.log] at *)
  all_goals first | assumption | grind [done, calling, onCpu]))

/-- for steps that add no event -/
macro "hs_tac" hi:ident hf:ident hnd:ident : tactic => `(tactic|(
  obtain ⟨nd, inb, job, wrk, fly, snd, stk, cpu, rnd, rdy, rpg, cdc, cdj, new⟩ := ($hi).loc
  obtain ⟨fut, okk, ow1, ow2, ow3, ow4, ow5, hjob, hwrk, hinb, hfr, hac, hov, hcp, hcs, oow, hcd⟩ := ($hi).hs
  clear nd $hnd $hf fly snd rnd stk cpu rdy rpg cdc cdj
  constructor <;> simp only [St.upd, St.setStack, St.push, St.log, H0, H1, H2, H3] at *
  all_goals first | assumption | grind [done, calling, active, over]))

/-- for steps that add events -/
macro "hsl_tac" hi:ident hf:ident hnd:ident : tactic => `(tactic|(
  obtain ⟨nd, inb, job, wrk, fly, snd, stk, cpu, rnd, rdy, rpg, cdc, cdj, new⟩ := ($hi).loc
  obtain ⟨fut, okk, ow1, ow2, ow3, ow4, ow5, hjob, hwrk, hinb, hfr, hac, hov, hcp, hcs, oow, hcd⟩ := ($hi).hs
  clear nd $hnd $hf fly snd rnd stk cpu rdy rpg cdc cdj
  constructor <;> simp only [St.upd, St.setStack, St.push, St.log, H0, H1, H2, H3, proj_append, proj_cons, proj_nil, Ev.no] at *
  all_goals first | assumption | grind [done, calling, active, over, CallOk.made, CallOk.refused, CallOk.entered, CallOk.left, CallOk.returned]))

/-- the same, leaving the goals it cannot close -/
macro "hslx_tac" hi:ident hf:ident hnd:ident : tactic => `(tactic|(
  obtain ⟨nd, inb, job, wrk, fly, snd, stk, cpu, rnd, rdy, rpg, cdc, cdj, new⟩ := ($hi).loc
  obtain ⟨fut, okk, ow1, ow2, ow3, ow4, ow5, hjob, hwrk, hinb, hfr, hac, hov, hcp, hcs, oow, hcd⟩ := ($hi).hs
  clear nd $hnd $hf fly snd rnd stk cpu rdy rpg cdc cdj
  constructor <;> simp only [St.upd, St.setStack, St.push, St.log, H0, H1, H2, H3, proj_append, proj_cons, proj_nil, Ev.no] at *
  all_goals try first | assumption | grind [done, calling, active, over, CallOk.made, CallOk.refused, CallOk.entered, CallOk.left, CallOk.returned]))

macro "inv_tac" hi:ident hf:ident hnd:ident : tactic => `(tactic|(
  refine ⟨?_, ?_, ?_⟩
  · loc_tac $hi $hf $hnd
  · jn_tac $hi $hf $hnd
  · hs_tac $hi $hf $hnd))

macro "invl_tac" hi:ident hf:ident hnd:ident : tactic => `(tactic|(
  refine ⟨?_, ?_, ?_⟩
  · loc_tac $hi $hf $hnd
  · jn_tac $hi $hf $hnd
  · hsl_tac $hi $hf $hnd))

theorem split_wrk {s : St} (hi : Inv s) {c k : Nat} (hw : (c, k) ∈ s.workers) :
    (∀ q, q ∈ s.workers.erase (c, k) ↔ q ∈ s.workers ∧ q.1 ≠ c) ∧ (c :: (s.inbox.map (·.fib) ++ (s.jobs ++ (s.workers.erase (c, k)).map (·.1)))).Nodup := by
  obtain ⟨a, b, hn, hw', he⟩ := List.exists_erase_eq hw
  have nd := hi.loc.nd
  have hp : (flight s).Perm (c :: (s.inbox.map (·.fib) ++ (s.jobs ++ (s.workers.erase (c, k)).map (·.1)))) := by
    rw [flight, he, hw', List.map_append, List.map_cons, List.map_append]
    simp only [← List.append_assoc]
    exact List.perm_middle
  have nd' := hp.nodup_iff.1 nd
  refine ⟨fun q => ?_, nd'⟩
  rw [List.nodup_cons] at nd'
  have h1 : c ∉ (s.workers.erase (c, k)).map (·.1) := by
    intro h; exact nd'.1 (by simp [List.mem_append] at h ⊢; grind)
  rw [he] at h1 ⊢
  rw [hw']
  simp only [List.mem_map, List.mem_append, List.mem_cons, not_exists, not_and] at h1 ⊢
  constructor
  · intro h; exact ⟨by grind, h1 q h⟩
  · rintro ⟨h, hc⟩
    rcases h with h | rfl | h
    · exact .inl h
    · exact absurd rfl hc
    · exact .inr h

theorem split_job {s : St} (hi : Inv s) {c : Nat} (hw : c ∈ s.jobs) :
    (∀ q, q ∈ s.jobs.erase c ↔ q ∈ s.jobs ∧ q ≠ c) ∧ (c :: (s.inbox.map (·.fib) ++ (s.jobs.erase c ++ s.workers.map (·.1)))).Nodup := by
  obtain ⟨a, b, hn, hw', he⟩ := List.exists_erase_eq hw
  have nd := hi.loc.nd
  have hp : (flight s).Perm (c :: (s.inbox.map (·.fib) ++ (s.jobs.erase c ++ s.workers.map (·.1)))) := by
    rw [flight, he, hw']
    rw [List.append_assoc, List.append_assoc, List.cons_append, ← List.append_assoc, ← List.append_assoc]
    exact List.perm_middle
  have nd' := hp.nodup_iff.1 nd
  refine ⟨fun q => ?_, nd'⟩
  have : s.jobs.Nodup := (List.nodup_append.1 (List.nodup_append.1 nd).2.1).1
  rw [this.mem_erase_iff]; exact ⟨fun h => ⟨h.2, h.1⟩, fun h => ⟨h.2, h.1⟩⟩

theorem split_inb {s : St} (hi : Inv s) {m : Msg} (hw : m ∈ s.inbox) :
    (∀ q, q ∈ s.inbox.erase m ↔ q ∈ s.inbox ∧ q.fib ≠ m.fib) ∧
    (m.fib :: ((s.inbox.erase m).map (·.fib) ++ (s.jobs ++ s.workers.map (·.1)))).Nodup := by
  obtain ⟨a, b, hn, hw', he⟩ := List.exists_erase_eq hw
  have nd := hi.loc.nd
  have hp : (flight s).Perm (m.fib :: ((s.inbox.erase m).map (·.fib) ++ (s.jobs ++ s.workers.map (·.1)))) := by
    rw [flight, he, hw', List.map_append, List.map_cons, List.map_append, List.append_assoc, List.append_assoc, List.cons_append]
    exact List.perm_middle
  have nd' := hp.nodup_iff.1 nd
  refine ⟨fun q => ?_, nd'⟩
  rw [List.nodup_cons] at nd'
  have h1 : m.fib ∉ (s.inbox.erase m).map (·.fib) := fun h => nd'.1 (List.mem_append.2 (.inl h))
  rw [he] at h1 ⊢
  rw [hw']
  simp only [List.mem_map, List.mem_append, List.mem_cons, not_exists, not_and] at h1 ⊢
  constructor
  · intro h; exact ⟨by grind, h1 q h⟩
  · rintro ⟨h, hc⟩
    rcases h with h | rfl | h
    · exact .inl h
    · exact absurd rfl hc
    · exact .inr h

theorem wrk_facts {s : St} (hi : Inv s) {c k : Nat} (hw : (c, k) ∈ s.workers) :
    (∀ q, q ∈ s.workers.erase (c, k) ↔ q ∈ s.workers ∧ q.1 ≠ c) ∧ (∀ m ∈ s.inbox, m.fib ≠ c) ∧ c ∉ s.jobs ∧
    (c :: (s.inbox.map (·.fib) ++ (s.jobs ++ (s.workers.erase (c, k)).map (·.1)))).Nodup := by
  obtain ⟨h1, h2⟩ := split_wrk hi hw
  have h3 := (List.nodup_cons.1 h2).1
  refine ⟨h1, ?_, ?_, h2⟩
  · intro m hm e; exact h3 (List.mem_append.2 (.inl (List.mem_map.2 ⟨m, hm, e⟩)))
  · intro h; exact h3 (List.mem_append.2 (.inr (List.mem_append.2 (.inl h))))

theorem job_facts {s : St} (hi : Inv s) {c : Nat} (hw : c ∈ s.jobs) :
    (∀ q, q ∈ s.jobs.erase c ↔ q ∈ s.jobs ∧ q ≠ c) ∧ (∀ m ∈ s.inbox, m.fib ≠ c) ∧ (∀ q ∈ s.workers, q.1 ≠ c) ∧
    (c :: (s.inbox.map (·.fib) ++ (s.jobs.erase c ++ s.workers.map (·.1)))).Nodup := by
  obtain ⟨h1, h2⟩ := split_job hi hw
  have h3 := (List.nodup_cons.1 h2).1
  refine ⟨h1, ?_, ?_, h2⟩
  · intro m hm e; exact h3 (List.mem_append.2 (.inl (List.mem_map.2 ⟨m, hm, e⟩)))
  · intro q hq e; exact h3 (List.mem_append.2 (.inr (List.mem_append.2 (.inr (List.mem_map.2 ⟨q, hq, e⟩)))))

theorem inb_facts {s : St} (hi : Inv s) {m : Msg} (hw : m ∈ s.inbox) :
    (∀ q, q ∈ s.inbox.erase m ↔ q ∈ s.inbox ∧ q.fib ≠ m.fib) ∧ m.fib ∉ s.jobs ∧ (∀ q ∈ s.workers, q.1 ≠ m.fib) ∧
    (m.fib :: ((s.inbox.erase m).map (·.fib) ++ (s.jobs ++ s.workers.map (·.1)))).Nodup := by
  obtain ⟨h1, h2⟩ := split_inb hi hw
  have h3 := (List.nodup_cons.1 h2).1
  refine ⟨h1, ?_, ?_, h2⟩
  · intro h; exact h3 (List.mem_append.2 (.inr (List.mem_append.2 (.inl h))))
  · intro q hq e; exact h3 (List.mem_append.2 (.inr (List.mem_append.2 (.inr (List.mem_map.2 ⟨q, hq, e⟩)))))

end Kasync.Remote
