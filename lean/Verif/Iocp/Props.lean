import Verif.Iocp.Step

/-! # C61: the completion port selector -/

namespace Kasync.Iocp

/-- Moves of the selector's own thread outside any callback of the caller. -/
def Own : Op → Prop
  | .select | .popWrite | .popRead | .popEnd => True
  | _ => False

/-- A series of such moves. -/
inductive Run : Nat → St → St → Prop where
  | nil (s : St) : Run 0 s s
  | cons {n : Nat} {s s1 s2 : St} (op : Op) : Own op → step s op = .ok s1 → Run n s1 s2 → Run (n + 1) s s2

/-- The selector has nothing to do: the port is empty, no connection is in the ready list, and the ready loop is not under way. -/
def AtRest (s : St) : Prop := s.port = [] ∧ s.cur = none ∧ s.loc ≠ .ready

theorem nodup_fst {l : List (Nat × Int)} {i : Nat} {v w : Int} (h : (l.map Prod.fst).Nodup) (h1 : (i, v) ∈ l) (h2 : (i, w) ∈ l) : v = w := by
  induction l with
  | nil => cases h1
  | cons x l ih =>
    simp only [List.map_cons, List.nodup_cons] at h
    have m : ∀ u, (i, u) ∈ l → i ∈ l.map Prod.fst := fun u hu => List.mem_map_of_mem (f := Prod.fst) hu
    rcases List.mem_cons.1 h1 with e1 | e1 <;> rcases List.mem_cons.1 h2 with e2 | e2
    · rw [← e1] at e2; cases e2; rfl
    · rw [← e1] at h; exact absurd (m _ e2) h.1
    · rw [← e2] at h; exact absurd (m _ e1) h.1
    · exact ih h.2 e1 e2

theorem own_client {s : St} {op : Op} (h : Own op) : Client s op := by
  cases op <;> first | trivial | exact h.elim

theorem Run.hist {k : Kind} {n : Nat} {s s' : St} (h : Run n s s') : Hist k s → Hist k s' := by
  induction h with
  | nil => exact id
  | cons op ho he _ ih => exact fun hs => ih (.step op hs (own_client ho) he)

/-- Keeping the rules, no operation of the caller, the kernel or the selector fails an assertion, touches a released selectable or
writes to a request that is not there. -/
theorem iocp_no_ub {k : Kind} {s : St} (h : Hist k s) {op : Op} (hc : Client s op) : step s op ≠ .ub := by
  have hi := h.inv
  have hR := hi.busyR
  have hW := hi.busyW
  have hsock := hi.sock
  have hl := hi.listed
  have hdead := hi.dead
  have ho := hi.sideR.off
  have ho' := hi.sideW.off
  have halive : s.loc ≠ .none → s.alive = true := by grind
  cases op <;> dsimp only [step, Client] at hc ⊢
  case bind => grind
  case read ok => (split; · grind); (split <;> simp)
  case write ok =>
    have : s.write = false := by grind
    (split; · grind); (split <;> simp)
  case sendfile ok => (split; · grind); (split <;> simp)
  case connect ok =>
    have : s.loc = .none := by grind
    split
    · grind
    · split
      · simp [this]
      · simp
  case aioRead ok => (split; · grind); (split <;> simp)
  case aioWrite ok => (split; · grind); (split <;> simp)
  case accept tries =>
    have : s.asock = none := by
      cases e : s.asock with
      | none => rfl
      | some x => have := hsock.1 ⟨x, e⟩; grind
    split
    · grind
    · split <;> simp
  case nextRead =>
    have : s.read = false := by grind
    (split; · grind); simp
  case nextWrite =>
    have : s.write = false := by grind
    (split; · grind); simp
  case destroy =>
    have : s.loc = .none := by grind
    (split; · grind); simp
  case expire => (split; · (split; · grind); simp); simp
  case stop => simp
  case kernel d ok n =>
    cases d <;> dsimp only <;> split <;> try simp
    exact hi.dng
  case post id got ok => simp
  case select =>
    split
    · split
      · simp
      · next d id ok n p hp =>
        have hf := pkt_flag hi hp
        unfold complete
        have hal : s.alive = true := by cases d <;> grind
        rw [if_neg (by simp [hal])]
        cases d <;> dsimp only <;> split <;> first | grind | simp
      · simp
    · simp
  case popWrite =>
    split
    · split
      · grind
      · split <;> simp
    · simp
  case popRead =>
    have := hi.todo
    have := hi.cur_rd
    split
    · split
      · (split; · grind); simp
      · simp
    · simp
  case popEnd =>
    have := hi.cur_wr
    have := hi.cur_rd
    split
    · split
      · simp
      · split
        · (split; · grind); simp
        · simp
    · simp

/-- Every request is answered at most once, no callback is called for a request never made, and at most one request of a direction
(one at all for a file or a listening socket) waits at any time. -/
theorem iocp_exactly_once {k : Kind} {s : St} (h : Hist k s) :
    (s.done.map Prod.fst).Nodup ∧ (∀ i ∈ s.done.map Prod.fst, i < s.next) ∧
    (∀ i j, Outstanding s i → Outstanding s j → (s.req i = s.req j ∨ s.kind ≠ .conn) → i = j) := by
  have hi := h.inv
  refine ⟨hi.done_nodup, hi.done_lt, fun i j h1 h2 h3 => ?_⟩
  have hr := hi.out_r
  have hw := hi.out_w
  have hse := hi.serv
  have hfi := hi.filed
  have hk : s.kind = .conn ∨ s.kind = .server ∨ s.kind = .file := by cases s.kind <;> simp
  rcases hi.acct i h1 with ⟨a, b⟩ | ⟨a, b⟩ <;> rcases hi.acct j h2 with ⟨c, d⟩ | ⟨c, d⟩ <;> grind

/-- A callback is told what was decided about its own request, and only that; what is decided about a request is decided once. -/
theorem iocp_answer_true {k : Kind} {s : St} (h : Hist k s) :
    (∀ p ∈ s.done, p ∈ s.outcome) ∧ (s.outcome.map Prod.fst).Nodup ∧ (∀ i ∈ s.outcome.map Prod.fst, i < s.next) :=
  ⟨h.inv.done_out, h.inv.out_nodup, h.inv.out_lt⟩

/-- Where an outcome comes from: the kernel's completion of the very call it holds for the outstanding request of that direction
(the bytes, or −1 for a failure), a call that failed (−1), or the ready loop answering a request made with `selectable_next_*` (0).
Nothing else adds one, and answers are never taken back. -/
theorem iocp_outcome_source {k : Kind} {s s' : St} (h : Hist k s) {op : Op} (hc : Client s op) (he : step s op = .ok s') :
    (∃ l, s'.done = s.done ++ l) ∧
    (s'.outcome = s.outcome ∨ ∃ id v, s'.outcome = s.outcome ++ [(id, v)] ∧
      ((∃ d ok n, op = .kernel d ok n ∧ v = (if ok then (n : Int) else -1) ∧ Outstanding s id ∧ s.req id = d ∧
          (if d = .r then s.pendR else s.pendW) = some id) ∨
       ((op = .read false ∨ op = .write false ∨ op = .sendfile false) ∧ id = s.next ∧ v = -1 ∧ s'.done = s.done ++ [(id, v)]) ∨
       ((op = .popWrite ∧ s.req id = .w ∨ op = .popRead ∧ s.req id = .r) ∧ Outstanding s id ∧ v = 0 ∧ s'.done = s.done ++ [(id, v)]))) := by
  have hi := h.inv
  have hor := hi.out_r
  have how := hi.out_w
  have hsr := hi.sideR
  have hsw := hi.sideW
  have hR := hi.busyR
  have hW := hi.busyW
  cases op <;> dsimp only [step, Client] at hc he
  case bind => split at he <;> cases he; exact ⟨⟨[], by simp⟩, .inl rfl⟩
  case read ok =>
    split at he
    · cases he
    cases ok <;> simp only [if_true, ensureRw, addList] at he
    · cases he
      exact ⟨⟨_, rfl⟩, .inr ⟨_, _, rfl, .inr (.inl ⟨.inl rfl, rfl, rfl, rfl⟩)⟩⟩
    · split at he <;> cases he <;> exact ⟨⟨[], by simp [St.request]⟩, .inl rfl⟩
  case write ok =>
    split at he
    · cases he
    cases ok <;> simp only [if_true, ensureRw, addList] at he
    · cases he
      exact ⟨⟨_, rfl⟩, .inr ⟨_, _, rfl, .inr (.inl ⟨.inr (.inl rfl), rfl, rfl, rfl⟩)⟩⟩
    · split at he <;> cases he <;> exact ⟨⟨[], by simp [St.request]⟩, .inl rfl⟩
  case sendfile ok =>
    split at he
    · cases he
    cases ok <;> simp only [if_true, ensureRw, addList] at he
    · cases he
      exact ⟨⟨_, rfl⟩, .inr ⟨_, _, rfl, .inr (.inl ⟨.inr (.inr rfl), rfl, rfl, rfl⟩)⟩⟩
    · split at he <;> cases he <;> exact ⟨⟨[], by simp [St.request]⟩, .inl rfl⟩
  case connect ok =>
    split at he
    · cases he
    split at he
    · split at he <;> cases he
      exact ⟨⟨[], by simp [St.request, addList]⟩, .inl rfl⟩
    · cases he; exact ⟨⟨[], by simp⟩, .inl rfl⟩
  case aioRead ok =>
    split at he
    · cases he
    split at he <;> cases he <;> exact ⟨⟨[], by simp [St.request]⟩, .inl rfl⟩
  case aioWrite ok =>
    split at he
    · cases he
    split at he <;> cases he <;> exact ⟨⟨[], by simp [St.request]⟩, .inl rfl⟩
  case accept tries =>
    split at he
    · cases he
    have key : ∀ (ts : List Try) (t : St), (acceptTries t ts).1.done = t.done ∧ (acceptTries t ts).1.outcome = t.outcome := by
      intro ts
      induction ts with
      | nil => exact fun _ => ⟨rfl, rfl⟩
      | cons x ts ih =>
        intro t
        cases x
        · exact ih t
        · exact ih _
        · exact ⟨rfl, rfl⟩
    split at he
    · cases he; exact ⟨⟨[], by simp⟩, .inl rfl⟩
    · cases he
      obtain ⟨e1, e2⟩ := key tries s
      split
      · exact ⟨⟨[], by simp [e1]⟩, .inl e2⟩
      · exact ⟨⟨[], by simp [e1]⟩, .inl e2⟩
  case nextRead => split at he <;> cases he; exact ⟨⟨[], by simp [St.request, addList]⟩, .inl rfl⟩
  case nextWrite => split at he <;> cases he; exact ⟨⟨[], by simp [St.request, addList]⟩, .inl rfl⟩
  case destroy =>
    split at he
    · cases he
    · cases he
      split <;> exact ⟨⟨[], by simp⟩, .inl rfl⟩
  case expire =>
    split at he
    · split at he <;> cases he
      exact ⟨⟨[], by simp⟩, .inl rfl⟩
    · cases he
  case stop => cases he; exact ⟨⟨[], by simp⟩, .inl rfl⟩
  case kernel d ok n =>
    cases d <;> dsimp only at he <;> split at he
    · next id hp =>
      split at he
      · cases he
      cases he
      have hr : s.read = true := by
        cases e : s.read
        · rw [(hsr.off e).2.1] at hp; cases hp
        · rfl
      have hid : id = s.rid := by rcases hsr.on hr with ⟨_, e, _⟩ | ⟨_, e, _⟩ | ⟨_, e, _⟩ <;> rw [hp] at e <;> cases e; rfl
      subst hid
      refine ⟨?_, .inr ⟨s.rid, _, ?_, .inl ⟨.r, ok, n, rfl, rfl, (hor hr).1, (hor hr).2, hp⟩⟩⟩
      · split <;> exact ⟨[], by simp [St.decide]⟩
      · split <;> rfl
    · cases he
    · next id hp =>
      cases he
      have hr : s.write = true := by
        cases e : s.write
        · rw [(hsw.off e).2.1] at hp; cases hp
        · rfl
      have hid : id = s.wid := by rcases hsw.on hr with ⟨_, e, _⟩ | ⟨_, e, _⟩ | ⟨_, e, _⟩ <;> rw [hp] at e <;> cases e; rfl
      subst hid
      refine ⟨?_, .inr ⟨s.wid, _, ?_, .inl ⟨.w, ok, n, rfl, rfl, (how hr).1, (how hr).2, hp⟩⟩⟩
      · split <;> exact ⟨[], by simp [St.decide]⟩
      · split <;> rfl
    · cases he
  case post id got ok => cases he; split <;> exact ⟨⟨[], by simp⟩, .inl rfl⟩
  case select =>
    split at he
    · split at he
      · cases he
      · next d id ok n p hp =>
        have gs : ∀ t : St, (getSocket t ok).done = t.done ∧ (getSocket t ok).outcome = t.outcome := by
          intro t; unfold getSocket; split
          · split <;> exact ⟨rfl, rfl⟩
          · exact ⟨rfl, rfl⟩
        unfold complete at he
        split at he
        · cases he
        cases d <;> dsimp only at he <;> split at he <;> cases he
        · have e := gs
          constructor
          · refine ⟨[(s.rid, if ok then (n : Int) else -1)], ?_⟩
            split <;> simp only [e, St.finishR, addList] <;> split <;> (try split) <;> rfl
          · left
            split <;> simp only [e, St.finishR, addList] <;> split <;> (try split) <;> rfl
        · constructor
          · refine ⟨[(s.wid, if ok then (n : Int) else -1)], ?_⟩
            simp only [St.finishW, addList]; split <;> (try split) <;> rfl
          · left
            simp only [St.finishW, addList]; split <;> (try split) <;> rfl
      · cases he; exact ⟨⟨[], by simp⟩, .inl rfl⟩
    · cases he
  case popWrite =>
    split at he
    · split at he
      · cases he
      split at he
      · next hw =>
        simp only [Bool.and_eq_true] at hw
        cases he
        exact ⟨⟨_, rfl⟩, .inr ⟨_, _, rfl, .inr (.inr ⟨.inl ⟨rfl, (how hw.2).2⟩, (how hw.2).1, rfl, rfl⟩)⟩⟩
      · cases he; exact ⟨⟨[], by simp [addList]⟩, .inl rfl⟩
    · cases he
  case popRead =>
    split at he
    · next k hcur =>
      split at he
      · next ht =>
        split at he
        · cases he
        cases he
        have hr := hi.cur_rd k hcur (hi.todo k hcur ht).2
        exact ⟨⟨_, rfl⟩, .inr ⟨_, _, rfl, .inr (.inr ⟨.inr ⟨rfl, (hor hr).2⟩, (hor hr).1, rfl, rfl⟩)⟩⟩
      · cases he
    · cases he
  case popEnd =>
    split at he
    · split at he
      · cases he
      split at he
      · split at he <;> cases he
        unfold ensureRw addList
        split <;> exact ⟨⟨[], by simp⟩, .inl rfl⟩
      · cases he; exact ⟨⟨[], by simp⟩, .inl rfl⟩
    · cases he

/-- When the selector has nothing to do, every request still waiting is held by the kernel, everything the kernel decided was told
to its callback, and a connection with a request is in a timeout list or was already shut down. -/
theorem iocp_rest {k : Kind} {s : St} (h : Hist k s) (hr : AtRest s) :
    (∀ id, Outstanding s id → (s.req id = .r ∧ s.pendR = some id) ∨ (s.req id = .w ∧ s.pendW = some id)) ∧
    (∀ p ∈ s.outcome, p ∈ s.done) ∧
    (s.kind = .conn → (∃ id, Outstanding s id) → s.loc = .rw ∨ s.loc = .connect ∨ s.shut = true) := by
  obtain ⟨hp, hcur, hl⟩ := hr
  have hi := h.inv
  have hr2 : s.rready2 = false := by
    cases e : s.rready2
    · rfl
    · rcases hi.r2 e with a | ⟨k, a, -⟩
      · exact absurd a hl
      · rw [hcur] at a; cases a
  have hw2 : s.wready2 = false := by
    cases e : s.wready2
    · rfl
    · exact absurd (hi.w2 e) hl
  have hsr := hi.sideR
  have hsw := hi.sideW
  rw [hp] at hsr hsw
  have kr : s.read = true → s.pendR = some s.rid ∧ s.rid ∉ s.outcome.map Prod.fst := by
    intro e
    rcases hsr.on e with ⟨a, _⟩ | ⟨_, a, _, b⟩ | ⟨_, _, v, a, _⟩
    · rw [hr2] at a; cases a
    · exact ⟨a, b⟩
    · cases a
  have kw : s.write = true → s.pendW = some s.wid ∧ s.wid ∉ s.outcome.map Prod.fst := by
    intro e
    rcases hsw.on e with ⟨a, _⟩ | ⟨_, a, _, b⟩ | ⟨_, _, v, a, _⟩
    · rw [hw2] at a; cases a
    · exact ⟨a, b⟩
    · cases a
  have hor := hi.out_r
  have how := hi.out_w
  refine ⟨fun id ho => ?_, fun p hpo => ?_, fun hk ⟨id, ho⟩ => ?_⟩
  · rcases hi.acct id ho with ⟨a, rfl⟩ | ⟨a, rfl⟩
    · exact .inl ⟨(hor a).2, (kr a).1⟩
    · exact .inr ⟨(how a).2, (kw a).1⟩
  · obtain ⟨i, v⟩ := p
    have hm : i ∈ s.outcome.map Prod.fst := List.mem_map_of_mem (f := Prod.fst) hpo
    by_cases hd : i ∈ s.done.map Prod.fst
    · obtain ⟨⟨i', v'⟩, hq, rfl⟩ := List.mem_map.1 hd
      have h2 := hi.done_out _ hq
      have := nodup_fst hi.out_nodup hpo h2
      rw [this]; exact hq
    · rcases hi.acct i ⟨hi.out_lt i hm, hd⟩ with ⟨a, rfl⟩ | ⟨a, rfl⟩
      · exact absurd hm (kr a).2
      · exact absurd hm (kw a).2
  · have hp : s.loc ≠ .none ∨ s.shut = true := by
      rcases hi.acct id ho with ⟨a, -⟩ | ⟨a, -⟩
      · rcases hi.place_r hk a with b | b | ⟨k, b, -⟩
        · exact .inl b
        · exact .inr b
        · rw [hcur] at b; cases b
      · rcases hi.place_w hk a with b | b | ⟨k, b, -⟩
        · exact .inl b
        · exact .inr b
        · rw [hcur] at b; cases b
    rcases hp with b | b
    · cases e : s.loc <;> simp_all
    · exact .inr (.inr b)

/-- Work left for the selector. -/
def work (s : St) : Nat :=
  s.port.length + (match s.cur with | none => 0 | some k => if k.todoR then 2 else 1) + (if s.loc = .ready then 3 else 0)

theorem own_work {s s' : St} {op : Op} (ho : Own op) (he : step s op = .ok s') : work s' < work s := by
  cases op <;> first | exact ho.elim | skip
  all_goals dsimp only [step] at he
  case select =>
    split at he
    · next hcur =>
      split at he
      · cases he
      · next d id ok n p hp =>
        have gs : ∀ t : St, (getSocket t ok).port = t.port ∧ (getSocket t ok).cur = t.cur ∧ (getSocket t ok).loc = t.loc := by
          intro t; unfold getSocket; split
          · split <;> exact ⟨rfl, rfl, rfl⟩
          · exact ⟨rfl, rfl, rfl⟩
        unfold complete at he
        split at he
        · cases he
        have hll : ∀ t : St, t.port = p → t.cur = s.cur → (t.loc = s.loc ∨ t.loc = .rw ∨ t.loc = .none) → work t < work s := by
          intro t h1 h2 hl
          unfold work
          rw [hp, h1, h2]
          rcases hl with e | e | e <;> rw [e] <;> simp <;> omega
        cases d <;> dsimp only at he <;> split at he <;> cases he
        · split <;> apply hll <;> simp only [gs, St.finishR, addList] <;> split <;> (try split) <;> simp
        · apply hll <;> simp only [St.finishW, addList] <;> split <;> (try split) <;> simp
      · next hp => cases he; simp [work, hp]
    · cases he
  case popWrite =>
    split at he
    · next hx =>
      split at he
      · cases he
      split at he
      · cases he; simp [work, hx.1, hx.2, addList, St.decide, St.finishW]; split <;> omega
      · cases he; simp [work, hx.1, hx.2, addList]; split <;> omega
    · cases he
  case popRead =>
    split at he
    · next k hcur =>
      split at he
      · next ht =>
        split at he <;> cases he
        simp [work, hcur, ht, St.decide, St.finishR]; split <;> simp_all <;> omega
      · cases he
    · cases he
  case popEnd =>
    split at he
    · next k hcur =>
      split at he
      · cases he
      next ht =>
      split at he
      · split at he <;> cases he
        simp only [work, hcur, ensureRw, addList, ht]
        split <;> simp_all <;> omega
      · cases he; simp [work, hcur, ht]
    · cases he

/-- Left to itself the selector settles: it makes at most five moves more than there are packets in the port, and while it is not at
rest it can make one. -/
theorem iocp_settles {k : Kind} {s s' : St} {n : Nat} (h : Hist k s) (hr : Run n s s') :
    n ≤ s.port.length + 5 ∧ (AtRest s' ∨ ∃ op s2, Own op ∧ step s' op = .ok s2) := by
  constructor
  · have key : ∀ {m : Nat} {a b : St}, Run m a b → m ≤ work a := by
      intro m a b hm
      induction hm with
      | nil => omega
      | cons op ho he _ ih => have := own_work ho he; omega
    have := key hr
    have hw : work s ≤ s.port.length + 5 := by
      unfold work
      split
      · split <;> omega
      · split <;> split <;> omega
    omega
  · have h' := hr.hist h
    have noub : ∀ {op : Op}, Own op → step s' op ≠ .disabled → ∃ s2, step s' op = .ok s2 := by
      intro op ho hd
      cases e : step s' op with
      | ok s2 => exact ⟨s2, rfl⟩
      | ub => exact absurd e (iocp_no_ub h' (own_client ho))
      | disabled => exact absurd e hd
    cases hcur : s'.cur with
    | some k =>
      right
      cases ht : k.todoR
      · obtain ⟨s2, e⟩ := noub (op := .popEnd) trivial (by
          simp only [step, hcur, ht]
          split
          · next x => cases x
          · split
            · split <;> simp
            · simp)
        exact ⟨.popEnd, s2, trivial, e⟩
      · obtain ⟨s2, e⟩ := noub (op := .popRead) trivial (by simp only [step, hcur, ht, if_true]; split <;> simp)
        exact ⟨.popRead, s2, trivial, e⟩
    | none =>
      by_cases hl : s'.loc = .ready
      · right
        obtain ⟨s2, e⟩ := noub (op := .popWrite) trivial (by
          simp only [step, hcur, hl, and_self, if_true]
          split
          · simp
          · split <;> simp)
        exact ⟨.popWrite, s2, trivial, e⟩
      · cases hp : s'.port with
        | nil => exact .inl ⟨hp, hcur, hl⟩
        | cons x p =>
          right
          obtain ⟨s2, e⟩ := noub (op := .select) trivial (by
            simp only [step, hcur, hp, if_true]
            cases x with
            | notice => simp
            | io d id ok n =>
              unfold complete
              cases d <;> dsimp only <;> split <;> (try simp) <;> split <;> simp)
          exact ⟨.select, s2, trivial, e⟩

/-- Every notice the port accepted is called once, in the order in which they were accepted, with its own value; those not called
yet are in the port. -/
theorem iocp_notices {k : Kind} {s : St} (h : Hist k s) :
    s.posted = s.called ++ s.port.filterMap (fun p => match p with | .notice id got => some (id, got) | _ => none) := by
  rw [h.inv.notices]
  congr 1
  generalize s.port = p
  induction p with
  | nil => rfl
  | cons x p ih => cases x <;> simp [nts, ih]

/-- Every socket made for AcceptEx is closed, handed to a connection, or with the accept under way: exactly one of them, once. -/
theorem iocp_sockets {k : Kind} {s : St} (h : Hist k s) :
    (s.closed ++ s.given ++ s.asock.toList).Nodup ∧ (∀ x, x < s.nsock ↔ x ∈ s.closed ∨ x ∈ s.given ∨ s.asock = some x) ∧
    ((∃ x, s.asock = some x) ↔ s.kind = .server ∧ Busy s .r) := by
  have hi := h.inv
  refine ⟨hi.socks.1, fun x => ?_, ?_⟩
  · rw [← hi.socks.2 x]; simp [Option.mem_toList, or_assoc]
  · rw [hi.busyR]; exact hi.sock

/-- A completed accept hands the very socket it was made with over to the connection if it succeeded, and closes it otherwise. -/
theorem iocp_accept_socket {k : Kind} {s s' : St} (h : Hist k s) (hk : s.kind = .server) {id n : Nat} {ok : Bool} {p : List Pkt}
    (hp : s.port = .io .r id ok n :: p) (he : step s .select = .ok s') :
    ∃ x, s.asock = some x ∧ s'.asock = none ∧ s'.nsock = s.nsock ∧ s'.done = s.done ++ [(id, if ok then (n : Int) else -1)] ∧
      s'.given = s.given ++ (if ok then [x] else []) ∧ s'.closed = s.closed ++ (if ok then [] else [x]) := by
  have hi := h.inv
  have hf := pkt_flag hi hp
  have hcur := (hi.conn (by simp [hk])).2.1
  have hr : s.read = true := by grind
  obtain ⟨x, hx⟩ := hi.sock.2 ⟨hk, hr⟩
  have hid : s.rid = id := by
    have hs := hi.sideR.on hr
    rw [hp] at hs
    simp only [pk, if_true] at hs
    rcases hs with ⟨_, _, a, _⟩ | ⟨_, _, a, _⟩ | ⟨_, _, v, a, _⟩
    · cases a
    · cases a
    · simp only [List.cons.injEq, Prod.mk.injEq] at a; exact a.1.1.symm
  simp only [step, hcur, hp, if_true, complete, hk] at he
  refine ⟨x, hx, ?_⟩
  split at he
  · cases he
  split at he
  · cases he
  cases he
  have hw := hi.serv hk
  simp only [hw, Bool.and_false, addList, St.finishR, getSocket, hx, hid]
  cases ok <;> simp

/-- A released selectable is in no list, and nothing the kernel holds or the port contains names it. -/
theorem iocp_released {k : Kind} {s : St} (h : Hist k s) (ha : s.alive = false) :
    s.loc = .none ∧ s.pendR = none ∧ s.pendW = none ∧ s.asock = none ∧ (∀ d id ok n, Pkt.io d id ok n ∉ s.port) ∧
    (∀ id, ¬ Outstanding s id) := by
  have hi := h.inv
  obtain ⟨a, b, c, d⟩ := hi.dead ha
  obtain ⟨-, p1, p2⟩ := hi.sideR.off a
  obtain ⟨-, q1, q2⟩ := hi.sideW.off b
  refine ⟨c, p1, q1, d, fun d id ok n hm => ?_, fun id ho => ?_⟩
  · have key : ∀ p : List Pkt, Pkt.io d id ok n ∈ p → pk d p ≠ [] := by
      intro p
      induction p with
      | nil => intro h; cases h
      | cons x p ih =>
        intro h
        rcases List.mem_cons.1 h with rfl | h
        · simp [pk]
        · have := ih h
          cases x <;> simp only [pk]
          · split <;> simp_all
          · exact this
    cases d
    · exact key _ hm p2
    · exact key _ hm q2
  · rcases hi.acct id ho with ⟨e, -⟩ | ⟨e, -⟩ <;> simp_all

/-! ## The hypotheses can be met -/

/-- The rules, decided from the flags. -/
def clientB (s : St) : Op → Bool
  | .bind => s.alive && !s.bound
  | .read _ | .nextRead => s.alive && s.bound && decide (s.kind = .conn) && !s.read
  | .recvFrom => false
  | .write _ | .sendfile _ | .nextWrite => s.alive && s.bound && decide (s.kind = .conn) && !s.write
  | .connect _ => s.alive && s.bound && decide (s.kind = .conn) && !s.read && !s.write
  | .aioRead _ | .aioWrite _ => s.alive && s.bound && decide (s.kind = .file) && !s.read && !s.write
  | .accept _ => s.alive && s.bound && decide (s.kind = .server) && !s.read
  | .destroy => s.alive && !s.read && !s.write
  | _ => true

def runB (s : St) : List Op → Option St
  | [] => some s
  | op :: ops => if clientB s op then (match step s op with | .ok s1 => runB s1 ops | _ => none) else none

theorem runB_hist {k : Kind} {ops : List Op} : ∀ {s s' : St}, Hist k s → runB s ops = some s' → Hist k s' := by
  induction ops with
  | nil => intro s s' h e; cases e; exact h
  | cons op ops ih =>
    intro s s' h e
    simp only [runB] at e
    split at e
    · next hc =>
      split at e
      · next s1 hs =>
        refine ih (.step op h ?_ hs) e
        have hR := h.inv.busyR
        have hW := h.inv.busyW
        cases op <;> simp [clientB, Client] at hc ⊢ <;> grind
      · cases e
    · cases e

/-- A connection: a failed connect, a good one, then a read, a write and a notice; the kernel finishes the write first.  Each
callback has its own answer. -/
example : ∃ s : St, Hist .conn s ∧ AtRest s ∧ s.done = [(0, 0), (2, 5), (1, -1), (3, 0)] ∧ s.called = [(7, -3)] ∧ s.alive = false := by
  obtain ⟨s, e⟩ : ∃ s, runB { kind := .conn } [.bind, .connect false, .connect true, .kernel .w true 0, .select, .read true, .write true,
    .kernel .w true 5, .post 7 (-3) true, .select, .kernel .r false 0, .select, .select, .nextWrite, .popWrite, .popEnd, .destroy] = some s := ⟨_, rfl⟩
  refine ⟨s, runB_hist .init e, ⟨?_, ?_, ?_⟩, ?_, ?_, ?_⟩ <;> cases e <;> first | rfl | decide

/-- `iocp_rest`: the selector rests while a read and a write are with the kernel. -/
example : ∃ s : St, Hist .conn s ∧ AtRest s ∧ Busy s .r ∧ Busy s .w ∧ s.loc = .rw := by
  obtain ⟨s, e⟩ : ∃ s, runB { kind := .conn } [.bind, .nextRead, .write true, .popWrite, .popRead, .popEnd, .read true] = some s := ⟨_, rfl⟩
  have h := runB_hist .init e
  refine ⟨s, h, ⟨?_, ?_, ?_⟩, h.inv.busyR.2 ?_, h.inv.busyW.2 ?_, ?_⟩ <;> cases e <;> first | rfl | decide

/-- `iocp_settles`: two packets and a connection in the ready list whose loop is under way: the selector still has work. -/
example : ∃ s : St, Hist .conn s ∧ s.port.length = 2 ∧ s.loc = .ready ∧ s.cur ≠ none ∧ ∃ s', Run 6 s s' ∧ AtRest s' := by
  obtain ⟨s, e⟩ : ∃ s, runB { kind := .conn } [.bind, .nextRead, .popWrite, .nextWrite, .post 1 2 true, .post 3 4 true] = some s := ⟨_, rfl⟩
  refine ⟨s, runB_hist .init e, ?_, ?_, ?_, ?_⟩
  · cases e; rfl
  · cases e; rfl
  · cases e; decide
  · cases e
    exact ⟨_, .cons .popRead trivial rfl (.cons .popEnd trivial rfl (.cons .popWrite trivial rfl (.cons .popEnd trivial rfl
      (.cons .select trivial rfl (.cons .select trivial rfl (.nil _)))))), rfl, rfl, by decide⟩

/-- A listening socket: three attempts, two of which fail; the accept succeeds.  The next one fails in the kernel. -/
example : ∃ s : St, Hist .server s ∧ s.given = [1] ∧ s.closed = [0, 2] ∧ s.asock = some 3 ∧ s.nsock = 4 ∧ s.done = [(0, 0), (1, -1)] := by
  obtain ⟨s, e⟩ : ∃ s, runB { kind := .server } [.bind, .accept [.noSock, .noEx, .ok], .kernel .r true 0, .select, .accept [.ok], .kernel .r false 0,
    .select, .accept [.ok]] = some s := ⟨_, rfl⟩
  refine ⟨s, runB_hist .init e, ?_⟩
  cases e; exact ⟨rfl, rfl, rfl, rfl, rfl⟩

/-- A file. -/
example : ∃ s : St, Hist .file s ∧ s.done = [(0, 9), (1, -1)] ∧ s.alive = false := by
  obtain ⟨s, e⟩ : ∃ s, runB { kind := .file } [.bind, .aioRead true, .kernel .r true 9, .select, .aioWrite false, .aioWrite true, .kernel .w false 0,
    .select, .destroy] = some s := ⟨_, rfl⟩
  refine ⟨s, runB_hist .init e, ?_⟩
  cases e; exact ⟨rfl, rfl⟩

/-! ## Findings -/

/-- **Finding (C61).** When PostQueuedCompletionStatus fails, `iocp_selector_next` frees the notice and returns as if nothing had
happened (`void`, src/kiocp_selector.c:274-278): no later move of anyone calls it, and whoever waits for it (a fiber woken from another
thread, say) waits for ever. -/
theorem failed_post_is_silent {k : Kind} {s : St} (h : Hist k s) (id : Nat) (got : Int) (hn : (id, got) ∉ s.posted) :
    step s (.post id got false) = .ok s ∧ ∀ n s', Run n s s' → (id, got) ∉ s'.called := by
  refine ⟨rfl, fun n s' hr hm => ?_⟩
  have hp : s'.posted = s.posted := by
    clear hm h hn
    induction hr with
    | nil => rfl
    | cons op ho he _ ih =>
      rw [ih]
      cases op <;> first | exact ho.elim | skip
      all_goals dsimp only [step] at he
      case select =>
        split at he
        · split at he
          · cases he
          · next d id ok n p hp =>
            have gs : ∀ t : St, (getSocket t ok).posted = t.posted := by
              intro t; unfold getSocket; split
              · split <;> rfl
              · rfl
            unfold complete at he
            split at he
            · cases he
            cases d <;> dsimp only at he <;> split at he <;> cases he
            · split <;> simp only [gs, St.finishR, addList] <;> split <;> (try split) <;> rfl
            · simp only [St.finishW, addList]; split <;> (try split) <;> rfl
          · cases he; rfl
        · cases he
      case popWrite =>
        split at he
        · split at he
          · cases he
          split at he <;> cases he <;> rfl
        · cases he
      case popRead =>
        split at he
        · split at he
          · split at he <;> cases he; rfl
          · cases he
        · cases he
      case popEnd =>
        split at he
        · split at he
          · cases he
          split at he
          · split at he <;> cases he
            unfold ensureRw addList
            split <;> rfl
          · cases he; rfl
        · cases he
  have := (hr.hist h).inv.notices
  rw [hp] at this
  exact hn (by rw [this]; simp [hm])

/-- **Finding (C61).** While AcceptEx fails (the listening socket went bad, say) `iocp_selector_accept` tries again at once, on the
selector's thread, until the server is stopped (240-250): for every number of attempts, each makes and closes a socket, and nothing else
runs. -/
theorem accept_spins (s : St) (n : Nat) :
    (acceptTries s (List.replicate n .noEx)).2 = false ∧ (acceptTries s (List.replicate n .noEx)).1.nsock = s.nsock + n ∧
    (acceptTries s (List.replicate n .noEx)).1.closed = s.closed ++ (List.range n).map (s.nsock + ·) := by
  induction n generalizing s with
  | zero => exact ⟨rfl, rfl, by simp [acceptTries]⟩
  | succ n ih =>
    obtain ⟨a, b, c⟩ := ih { s with nsock := s.nsock + 1, closed := s.closed ++ [s.nsock] }
    refine ⟨a, ?_, ?_⟩
    · rw [List.replicate_succ]; simp only [acceptTries, b]; omega
    · rw [List.replicate_succ]; simp only [acceptTries, c]
      rw [List.range_succ_eq_map]
      simp [Function.comp_def, Nat.add_assoc, Nat.add_comm 1]

/-- **Finding (C61).** A read on a datagram socket without `kudp_extend` gives WSARecvFrom the address of a local variable for the
length of the peer's address (src/kiocp_selector.c:111, 122-124): when the call completes later, the kernel writes to a stack frame that is gone. -/
theorem recvfrom_dangles :
    ∃ s, Hist .conn s ∧ ∃ t, step s .recvFrom = .ok t ∧ ∀ ok n, step t (.kernel .r ok n) = .ub := by
  obtain ⟨s, e⟩ : ∃ s, runB { kind := .conn } [.bind] = some s := ⟨_, rfl⟩
  refine ⟨s, runB_hist .init e, ?_⟩
  cases e
  exact ⟨_, rfl, fun _ _ => rfl⟩

end Kasync.Iocp
