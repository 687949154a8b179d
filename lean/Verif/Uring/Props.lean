import Verif.Uring.Reach

/-!
# What the io_uring selector guarantees (C49)

The theorems speak about the submission entries with the request they were prepared for (`Tag`, a ghost), the kernel's results handled
(`done`) and the user callbacks called (`ans`).
-/

namespace Kasync.Uring

/-- an entry prepared for request `i` whose completion has not been handled: waiting for submission, with the kernel, or in the
completion queue -/
def Waiting (s : St) (i : Nat) : Prop :=
  ∃ k t, t.req = i ∧ (Sqe.op k t ∈ s.sq ∨ Sqe.op k t ∈ s.inflight ∨ ∃ v, (Sqe.op k t, v) ∈ s.cq)

theorem mem_live {s : St} {q : Sqe} : q ∈ s.live ↔ q ∈ s.sq ∨ q ∈ s.inflight ∨ ∃ v, (q, v) ∈ s.cq := by
  simp [St.live, or_assoc]

theorem Inv.waitK {s : St} (h : Inv s none) {k : Key} (hf : (s.slots k).flag = true) (hr : s.usepoll k.1 = false ∨ (s.slots k).ready = false) :
    ∃ t, Sqe.op k t ∈ s.live ∧ Tagged s k t := by
  have hb : busy s k = true := by
    simp only [busy, hf, Bool.true_and]
    rcases hr with hr | hr <;> simp [hr]
  have hc := h.cnt k
  rw [hb, if_pos rfl] at hc
  have hp : 0 < s.live.countP (Sqe.on k) := by unfold Uring.cnt at hc; omega
  obtain ⟨q, hq, hon⟩ := List.countP_pos_iff.1 hp
  cases q with
  | zero => cases hon
  | timeout => cases hon
  | op k' t =>
    simp only [Sqe.on, decide_eq_true_eq] at hon
    subst hon
    exact ⟨t, hq, h.tags _ t hq⟩

theorem Tagged.req {s : St} {k : Key} {t : Tag} {i : Nat} (h : Tagged s k t)
    (hc : (s.slots k).cb = .user i ∨ (s.slots k).cb = .sfFile i ∨ (s.slots k).cb = .sfSock i) : t.req = i := by
  rcases t with ⟨r, kd⟩
  have h2 := h.2
  cases kd <;> simp only at h2 <;> grind

theorem Inv.waitSf {s : St} (h : Inv s none) {i : Nat} {sf : Sf} (hi : s.sfs i = some sf) : ∃ k t, t.req = i ∧ Sqe.op k t ∈ s.live := by
  have hok := h.sfi i sf hi
  cases hp : sf.p1
  · have h0 : sf.p0 = true ∧ sf.skip = false := by
      have h1 := hok.refs; have h2 := hok.pos; rw [hp] at h1; clear * - h1 h2; grind
    obtain ⟨f1, f2⟩ := hok.f0 h0.1 h0.2
    obtain ⟨t, ht, hT⟩ := h.waitK f1 (.inl hok.us)
    exact ⟨_, t, hT.req (.inr (.inr f2)), ht⟩
  · obtain ⟨f1, f2⟩ := hok.f1 hp
    obtain ⟨t, ht, hT⟩ := h.waitK f1 (.inl hok.uf)
    exact ⟨_, t, hT.req (.inr (.inl f2)), ht⟩

theorem waiting_iff {s : St} {i : Nat} : Waiting s i ↔ ∃ k t, t.req = i ∧ Sqe.op k t ∈ s.live := by
  simp only [Waiting, mem_live]

/-! ## C49: requests and answers -/

/-- **C49 (no request is answered twice).** -/
theorem uring_answered_once {dbg : Bool} {cap : Nat} {up : Nat → Bool} {s : St} (h : Reachable dbg cap up s) :
    (s.ans.map (·.1)).Nodup ∧ ∀ i ∈ s.ans.map (·.1), i < s.next :=
  ⟨(reachable_inv h).ansN, (reachable_inv h).ansL⟩

/-- **C49 (no request is lost).**  A request that has not been answered has an entry whose completion has not been handled, or is in
the slot of a polled socket that is ready. -/
theorem uring_no_request_lost {dbg : Bool} {cap : Nat} {up : Nat → Bool} {s : St} (h : Reachable dbg cap up s) {i : Nat} (hi : i < s.next)
    (ha : i ∉ s.ans.map (·.1)) :
    Waiting s i ∨ ∃ k, s.usepoll k.1 = true ∧ (s.slots k).flag = true ∧ (s.slots k).ready = true ∧ (s.slots k).cb = .user i := by
  have inv := reachable_inv h
  rw [waiting_iff]
  rcases inv.tot i hi with h | h | ⟨k, h1, h2⟩ | ⟨sf, h1, _⟩
  · exact absurd h ha
  · cases h
  · by_cases hr : s.usepoll k.1 = true ∧ (s.slots k).ready = true
    · exact .inr ⟨k, hr.1, h1, hr.2, h2⟩
    · obtain ⟨t, ht, hT⟩ := inv.waitK h1 (by cases h3 : s.usepoll k.1 <;> cases h4 : (s.slots k).ready <;> simp_all)
      exact .inl ⟨k, t, hT.req (.inl h2), ht⟩
  · exact .inl (inv.waitSf h1)

/-- **C49 (every request is answered in the end).**  When every completion has been handled and no polled socket is ready, every
request has been answered. -/
theorem uring_drained {dbg : Bool} {cap : Nat} {up : Nat → Bool} {s : St} (h : Reachable dbg cap up s)
    (h1 : s.sq = []) (h2 : s.inflight = []) (h3 : s.cq = []) (h4 : ∀ k, s.usepoll k.1 = true → (s.slots k).ready = false) :
    ∀ i, i < s.next → i ∈ s.ans.map (·.1) := by
  intro i hi
  by_cases hc : i ∈ s.ans.map (·.1)
  · exact hc
  rcases uring_no_request_lost h hi hc with ⟨k, t, _, hm⟩ | ⟨k, ha, _, hb, _⟩
  · rw [h1, h2, h3] at hm; simp at hm
  · rw [h4 k ha] at hb; cases hb

/-- **C49 (every answer is the kernel's).**  The value given to the callback of a request is the kernel's result for the entry of that
request (0 if the request was made without a buffer and the result is positive), or for a sendfile the result of its
socket half, given after both halves were completed; the other answers are those of `uring_own_answers`. -/
theorem uring_answers {dbg : Bool} {cap : Nat} {up : Nat → Bool} {s : St} (h : Reachable dbg cap up s) {i : Nat} {v : Int} (ha : (i, v) ∈ s.ans) :
    (i, v) ∈ s.own ∨ (⟨i, .data⟩, v) ∈ s.done ∨ (∃ w, (⟨i, .poll⟩, w) ∈ s.done ∧ v = if w > 0 then 0 else w) ∨
    (∃ b w v', (⟨i, .sfSock b⟩, w) ∈ s.done ∧ (⟨i, .sfFile⟩, v') ∈ s.done ∧ v = if w > 0 ∧ b = true then 0 else w) :=
  (reachable_inv h).just _ ha

/-- **C49 (a slot is used by one entry).**  Of the entries not yet handled, at most one points to a given event; the event is marked
as requested while it exists and holds the callback of the request the entry was prepared for. -/
theorem uring_one_entry_per_slot {dbg : Bool} {cap : Nat} {up : Nat → Bool} {s : St} (h : Reachable dbg cap up s) (k : Key) :
    (s.sq ++ s.inflight ++ s.cq.map (·.1)).countP (fun q => match q with | .op k' _ => k' = k | _ => false) ≤ 1 ∧
    ∀ t, .op k t ∈ s.sq ++ s.inflight ++ s.cq.map (·.1) → (s.slots k).flag = true ∧
      ((s.slots k).cb = .user t.req ∨ (s.slots k).cb = .sfFile t.req ∨ (s.slots k).cb = .sfSock t.req) := by
  have inv := reachable_inv h
  have hc := inv.cnt k
  constructor
  · have e : (fun q : Sqe => match q with | .op k' _ => decide (k' = k) | _ => false) = Sqe.on k := by
      funext q; cases q <;> rfl
    rw [e]
    show cnt s k ≤ 1
    rw [hc]; split <;> omega
  · intro t ht
    have hT := inv.tags k t ht
    refine ⟨?_, ?_⟩
    · cases hf : (s.slots k).flag
      · exact absurd ht (no_op (inv.idle hf) t)
      · rfl
    · rcases t with ⟨r, kd⟩
      have h2 := hT.2
      cases kd <;> simp only at h2 <;> grind

/-- **C49 (no undefined behaviour).**  No allowed operation dereferences a NULL or freed record, closes a descriptor twice or
fails an assertion. -/
theorem uring_safe {dbg : Bool} {cap : Nat} {up : Nat → Bool} {s : St} (h : Reachable dbg cap up s) {o : Op} (ha : Allowed s o) :
    step dbg s o ≠ none := by
  obtain ⟨s', h1, _⟩ := step_inv (dbg := dbg) (reachable_inv h) ha
  rw [h1]; simp

/-- **C49 (the record and the pipe of a sendfile).**  They exist only while a splice of that sendfile has not been handled: nothing
is released early, and nothing is left when both halves are over. -/
theorem uring_pipe_released {dbg : Bool} {cap : Nat} {up : Nat → Bool} {s : St} (h : Reachable dbg cap up s) {i : Nat}
    (hp : s.pipes i ≠ (false, false) ∨ s.sfs i ≠ none) : Waiting s i := by
  have inv := reachable_inv h
  rw [waiting_iff]
  have hx := inv.pipe i
  cases hs : s.sfs i with
  | none => rw [hs] at hx; rcases hp with hp | hp <;> simp_all
  | some sf => exact inv.waitSf hs

/-- the pipe end a waiting splice uses is open -/
theorem uring_pipe_kept {dbg : Bool} {cap : Nat} {up : Nat → Bool} {s : St} (h : Reachable dbg cap up s) {k : Key} {i : Nat} :
    (.op k ⟨i, .sfFile⟩ ∈ s.sq ++ s.inflight ++ s.cq.map (·.1) → (s.pipes i).2 = true) ∧
    (∀ b, .op k ⟨i, .sfSock b⟩ ∈ s.sq ++ s.inflight ++ s.cq.map (·.1) → (s.pipes i).1 = true) := by
  have inv := reachable_inv h
  have hx := inv.pipe i
  constructor
  · intro ht
    have hf := ((uring_one_entry_per_slot h k).2 _ ht).1
    obtain ⟨sf, h1, _, h3⟩ := inv.cbF k i hf (inv.tags k _ ht).2
    rw [h1] at hx; rw [hx]; exact h3
  · intro b ht
    have hf := ((uring_one_entry_per_slot h k).2 _ ht).1
    obtain ⟨sf, h1, _, h3, _⟩ := inv.cbS k i hf (inv.tags k _ ht).2.1
    rw [h1] at hx; rw [hx]; exact h3

/-! ## C49: the ring -/

theorem push_sq {s : St} {q : Sqe} (h : s.head ≤ s.hist.length) : (push s q).sq = s.sq ++ [q] := by
  simp only [push, St.sq]; rw [List.drop_append_of_le_length h]

theorem push_len {s : St} {q : Sqe} (h : s.head ≤ s.hist.length) : (push s q).sq.length = s.sq.length + 1 := by
  rw [push_sq h, List.length_append, List.length_singleton]

theorem sq_congr {s s' : St} (h1 : s'.hist = s.hist) (h2 : s'.head = s.head) : s'.sq = s.sq := by simp only [St.sq, h1, h2]

/-- `s'` has the entries of `s` -/
structure Same (s s' : St) : Prop where
  hist : s'.hist = s.hist
  head : s'.head = s.head
  cap : s'.cap = s.cap

theorem Same.trans {a b c : St} (h : Same a b) (h' : Same b c) : Same a c :=
  ⟨h'.1.trans h.1, h'.2.trans h.2, h'.3.trans h.3⟩

theorem close0_same {s s' : St} {id : Nat} (h : close0 s id = some s') : Same s s' ∧ s'.own = s.own := by
  unfold close0 at h
  split at h
  · cases h; exact ⟨⟨rfl, rfl, rfl⟩, rfl⟩
  · cases h

theorem close1_same {s s' : St} {id : Nat} (h : close1 s id = some s') : Same s s' ∧ s'.own = s.own := by
  unfold close1 at h
  split at h
  · cases h; exact ⟨⟨rfl, rfl, rfl⟩, rfl⟩
  · cases h

theorem sfCall_same {s s' : St} {sf : Sf} (h : sfCall s sf = some s') : Same s s' ∧ s'.own = s.own := by
  unfold sfCall at h
  split at h
  · cases h; exact ⟨⟨rfl, rfl, rfl⟩, rfl⟩
  · split at h
    · cases h; exact ⟨⟨rfl, rfl, rfl⟩, rfl⟩
    · cases h

theorem bind_same {s : St} {x : Option St} {f : St → Option St} {c : Bool} (h : ∀ y, x = some y → Same s y ∧ y.own = s.own)
    (hf : ∀ y z, f y = some z → Same y z ∧ z.own = y.own) :
    ∀ y, (if c = true then x.bind f else x) = some y → Same s y ∧ y.own = s.own := by
  intro y hy
  split at hy
  · cases x with
    | none => cases hy
    | some z =>
      obtain ⟨a, b⟩ := h z rfl
      obtain ⟨a', b'⟩ := hf z y hy
      exact ⟨a.trans a', b'.trans b⟩
  · exact h y hy

theorem sfResult_same {s s' : St} {id : Nat} {got : Int} {fin : Bool} (h : sfResult s id got fin = some s') : Same s s' ∧ s'.own = s.own := by
  unfold sfResult at h
  cases hs : s.sfs id with
  | none => rw [hs] at h; cases h
  | some sf =>
    rw [hs] at h
    dsimp only at h
    split at h
    · cases h; exact ⟨⟨rfl, rfl, rfl⟩, rfl⟩
    · refine bind_same (f := (close1 · id)) (bind_same (f := (close0 · id)) ?_ fun y z hz => close0_same hz) (fun y z hz => close1_same hz) s' h
      intro y hy
      obtain ⟨a, b⟩ := sfCall_same hy
      exact ⟨⟨a.1, a.2, a.3⟩, b⟩

theorem callback_same {s s' : St} {cb : Cb} {got : Int} (h : callback s cb got = some s') : Same s s' ∧ s'.own = s.own := by
  cases cb with
  | none => cases h
  | user id => cases h; exact ⟨⟨rfl, rfl, rfl⟩, rfl⟩
  | sfFile id =>
    unfold callback at h
    cases hs : s.sfs id with
    | none => simp only [hs] at h; cases h
    | some sf =>
      simp only [hs] at h
      split at h
      · cases h
      · rename_i s1 heq
        obtain ⟨a, b⟩ := close1_same heq
        obtain ⟨a', b'⟩ := sfResult_same h
        exact ⟨a.trans ⟨a'.1, a'.2, a'.3⟩, b'.trans b⟩
  | sfSock id =>
    unfold callback at h
    cases hs : s.sfs id with
    | none => simp only [hs] at h; cases h
    | some sf =>
      simp only [hs] at h
      split at h
      · cases h
      · rename_i s1 heq
        obtain ⟨a, b⟩ := close0_same heq
        obtain ⟨a', b'⟩ := sfResult_same h
        exact ⟨a.trans ⟨a'.1, a'.2, a'.3⟩, b'.trans b⟩

theorem complete_same {dbg : Bool} {s s' : St} {k : Key} {v : Int} (h : complete dbg s k v = some s') : Same s s' ∧ s'.own = s.own := by
  unfold complete at h
  dsimp only at h
  repeat' split at h
  all_goals first
    | (cases h; done)
    | (cases h; exact ⟨⟨rfl, rfl, rfl⟩, rfl⟩)
    | (obtain ⟨a, b⟩ := callback_same h; exact ⟨⟨a.1, a.2, a.3⟩, b⟩)

/-- what `s'` refused compared to `s`: nothing, or request `id` because there was no room -/
def Refused (s s' : St) (id : Nat) : Prop :=
  s'.own = s.own ∨ (s'.own = s.own ++ [(id, -1)] ∧ s.cap ≤ s.sq.length + 1)

theorem getSeq_full {s : St} {sub : Option Nat} (h : ¬ (getSeq s sub).2 = true) : s.cap ≤ s.sq.length := by
  unfold getSeq at h
  split at h
  · exact absurd rfl h
  · omega

theorem rw_own {dbg : Bool} {s s' : St} {k : Key} {buf : Bool} {id : Nat} {sub : Option Nat}
    (he : rw dbg s k buf id sub = some s') : Refused s s' id ∧ s'.cap = s.cap := by
  unfold rw at he
  dsimp only at he
  split at he
  · cases he
  split at he
  · split at he
    · cases he; exact ⟨.inl rfl, rfl⟩
    · split at he
      · rename_i hb
        cases he
        have e := getSeq_eqv (setSlot s k { s.slots k with st := k.1, cb := Cb.user id, nullb := false }) sub
        refine ⟨.inr ⟨?_, ?_⟩, e.cap⟩
        · simp only [answerOwn]; rw [e.own]; rfl
        · have := getSeq_full (by simpa using hb); exact Nat.le_succ_of_le this
      · cases he
        have e := getSeq_eqv (setSlot s k { s.slots k with st := k.1, cb := Cb.user id, nullb := false }) sub
        exact ⟨.inl e.own, e.cap⟩
  · generalize hsl : (if (k.2 == Dir.r) = true then false else (s.slots k).nullb) = nb at he
    have e := getSeq_eqv (setSlot s k { s.slots k with st := k.1, cb := Cb.user id, nullb := nb }) sub
    split at he
    · rename_i hb
      cases he
      refine ⟨.inr ⟨?_, ?_⟩, e.cap⟩
      · simp only [answerOwn]; rw [e.own]; rfl
      · have := getSeq_full (by simpa using hb); exact Nat.le_succ_of_le this
    · cases he
      exact ⟨.inl e.own, e.cap⟩

theorem sendfile_own {s s' : St} {c f : Nat} {pipe : Bool} {sub1 sub2 : Option Nat} (hd : s.head ≤ s.hist.length) (he : sendfile s c f pipe sub1 sub2 = some s') :
    (pipe = true → Refused s s' s.next) ∧ s'.cap = s.cap := by
  have e1 := getSeq_eqv { s with next := s.next + 1 } sub1
  unfold sendfile at he
  dsimp only at he
  split at he
  · rename_i hb
    cases he
    refine ⟨fun _ => .inr ⟨?_, ?_⟩, e1.cap⟩
    · simp only [answerOwn]; rw [e1.own]
    · have := getSeq_full (by simpa using hb); exact Nat.le_succ_of_le this
  split at he
  · rename_i hp
    cases he
    exact ⟨fun h => by rw [h] at hp; simp at hp, e1.cap⟩
  generalize hA : push (setSlot (setSlot _ _ _) _ _) _ = A at he
  have e2 := getSeq_eqv A sub2
  have hAo : A.own = s.own := by rw [← hA]; exact e1.own
  have hAc : A.cap = s.cap := by rw [← hA]; exact e1.cap
  split at he
  · rename_i hb
    cases he
    refine ⟨fun _ => .inr ⟨?_, ?_⟩, e2.cap.trans hAc⟩
    · simp only [answerOwn]; rw [e2.own, hAo]
    · have h2 : A.cap ≤ A.sq.length := getSeq_full (by simpa using hb)
      rw [hAc] at h2
      refine Nat.le_trans h2 ?_
      rw [← hA, push_len (by exact e1.hd hd)]
      refine Nat.succ_le_succ ?_
      show (getSeq { s with next := s.next + 1 } sub1).1.sq.length ≤ s.sq.length
      unfold getSeq
      split
      · exact Nat.le_refl _
      · cases sub1 with
        | none => exact Nat.le_refl _
        | some n => simp only [submit_sq, List.length_drop]; exact Nat.sub_le _ _
  · cases he
    exact ⟨fun _ => .inl (e2.own.trans hAo), e2.cap.trans hAc⟩

/-- every step but a request of the user keeps what was refused -/
theorem step_own {dbg : Bool} {s s' : St} {o : Op} (hd : s.head ≤ s.hist.length) (ha : Allowed s o) (he : step dbg s o = some s') :
    (∀ x ∈ s'.own, x ∈ s.own ∨ (x.2 = -1 ∧ s.cap ≤ s.sq.length + 1) ∨
      ∃ k keep sub, o = .fire k (some x.2) keep sub ∧ (s.slots k).cb = .user x.1) ∧ s'.cap = s.cap := by
  have ref : ∀ id, Refused s s' id → ∀ x ∈ s'.own, x ∈ s.own ∨ (x.2 = -1 ∧ s.cap ≤ s.sq.length + 1) ∨
      ∃ k keep sub, o = .fire k (some x.2) keep sub ∧ (s.slots k).cb = .user x.1 := by
    intro id hr x hx
    rcases hr with hr | ⟨hr, hc⟩
    · rw [hr] at hx; exact .inl hx
    · rw [hr] at hx
      rcases List.mem_append.1 hx with hx | hx
      · exact .inl hx
      · rw [List.mem_singleton.1 hx]; exact .inr (.inl ⟨rfl, hc⟩)
  have same : s'.own = s.own → ∀ x ∈ s'.own, x ∈ s.own ∨ (x.2 = -1 ∧ s.cap ≤ s.sq.length + 1) ∨
      ∃ k keep sub, o = .fire k (some x.2) keep sub ∧ (s.slots k).cb = .user x.1 := by
    intro e x hx; rw [e] at hx; exact .inl hx
  cases o with
  | rw k buf sub => obtain ⟨h1, h2⟩ := rw_own he; exact ⟨ref _ h1, h2⟩
  | plain k sub =>
    have e := getSeq_eqv s sub
    simp only [step, plain] at he
    split at he
    · cases he; exact ⟨same e.own, e.cap⟩
    · split at he
      · cases he
      · cases he; exact ⟨same e.own, e.cap⟩
  | sendfile c f pipe sub1 sub2 => obtain ⟨h1, h2⟩ := sendfile_own hd he; exact ⟨ref _ (h1 ha.1), h2⟩
  | submit n => cases he; exact ⟨same rfl, rfl⟩
  | timeout sub =>
    have e := getSeq_eqv s sub
    simp only [step] at he
    split at he
    · cases he
    · cases he; exact ⟨same e.own, e.cap⟩
  | kernel i v =>
    simp only [step] at he
    split at he <;> cases he <;> exact ⟨same rfl, rfl⟩
  | handle =>
    simp only [step] at he
    split at he
    · cases he; exact ⟨same rfl, rfl⟩
    · split at he
      · cases he
      · cases he; exact ⟨same rfl, rfl⟩
      · obtain ⟨a, b⟩ := complete_same he; exact ⟨same b, a.cap⟩
  | fire k v keep sub =>
    simp only [step] at he
    split at he
    · rename_i id hc
      split at he
      · cases he
        refine ⟨?_, rfl⟩
        intro x hx
        rcases List.mem_append.1 hx with hx | hx
        · exact .inl hx
        · rw [List.mem_singleton.1 hx]; exact .inr (.inr ⟨k, keep, sub, rfl, hc⟩)
      · obtain ⟨h1, h2⟩ := rw_own he; exact ⟨ref _ h1, h2⟩
    · cases he

/-- the entries not submitted fit in the ring; `n` more would -/
def Fits (s : St) (n : Nat) : Prop := s.head ≤ s.hist.length ∧ s.sq.length + n ≤ s.cap

theorem Fits.same {s s' : St} {n : Nat} (h : Fits s n) (e : Same s s') : Fits s' n := by
  unfold Fits; rw [sq_congr e.hist e.head, e.cap, e.hist, e.head]; exact h

theorem Fits.getSeq {s : St} (h : Fits s 0) (sub : Option Nat) : Fits (getSeq s sub).1 0 ∧ ((getSeq s sub).2 = true → Fits (getSeq s sub).1 1) := by
  have e := getSeq_eqv s sub
  refine ⟨⟨e.hd h.1, ?_⟩, fun hb => ⟨e.hd h.1, ?_⟩⟩
  · rw [e.cap]
    unfold Uring.getSeq
    split
    · exact h.2
    · cases sub with
      | none => exact h.2
      | some n =>
        simp only [submit_sq, List.length_drop]
        have := h.2; omega
  · have := getSeq_room s sub hb
    rw [e.cap]; omega

theorem Fits.push {s : St} {n : Nat} (h : Fits s (n + 1)) (q : Sqe) : Fits (push s q) n := by
  refine ⟨push_hd _ _ h.1, ?_⟩
  rw [push_sq h.1, List.length_append, List.length_singleton]
  have := h.2
  show s.sq.length + 1 + n ≤ s.cap
  omega

theorem rw_fits {dbg : Bool} {s s' : St} {k : Key} {buf : Bool} {id : Nat} {sub : Option Nat} (h : Fits s 0)
    (he : rw dbg s k buf id sub = some s') : Fits s' 0 := by
  unfold rw at he
  dsimp only at he
  split at he
  · cases he
  split at he
  · split at he
    · cases he; exact h.same ⟨rfl, rfl, rfl⟩
    · split at he
      · cases he; exact ((h.same (s' := setSlot s k _) ⟨rfl, rfl, rfl⟩).getSeq sub).1.same ⟨rfl, rfl, rfl⟩
      · rename_i hb
        cases he
        refine Fits.push ?_ _
        exact (((h.same (s' := setSlot s k _) ⟨rfl, rfl, rfl⟩).getSeq sub).2 (by simpa using hb)).same ⟨rfl, rfl, rfl⟩
  · generalize hsl : (if (k.2 == Dir.r) = true then false else (s.slots k).nullb) = nb at he
    split at he
    · cases he; exact ((h.same (s' := setSlot s k _) ⟨rfl, rfl, rfl⟩).getSeq sub).1.same ⟨rfl, rfl, rfl⟩
    · rename_i hb
      cases he
      refine Fits.push ?_ _
      exact (((h.same (s' := setSlot s k _) ⟨rfl, rfl, rfl⟩).getSeq sub).2 (by simpa using hb)).same ⟨rfl, rfl, rfl⟩

theorem step_fits {dbg : Bool} {s s' : St} {o : Op} (h : Fits s 0) (he : step dbg s o = some s') : Fits s' 0 := by
  cases o with
  | rw k buf sub => exact rw_fits (s := { s with next := s.next + 1 }) (h.same ⟨rfl, rfl, rfl⟩) he
  | plain k sub =>
    simp only [step, plain] at he
    split at he
    · cases he; exact (h.getSeq sub).1
    · rename_i hb
      split at he
      · cases he
      · cases he
        have := ((h.getSeq sub).2 (by simpa using hb)).same (s' := setSlot (getSeq s sub).1 k { (getSeq s sub).1.slots k with st := k.1, cb := Cb.user (getSeq s sub).1.next, nullb := false, flag := true }) ⟨rfl, rfl, rfl⟩
        exact (this.push (.op k ⟨(getSeq s sub).1.next, .data⟩)).same ⟨rfl, rfl, rfl⟩
  | sendfile c f pipe sub1 sub2 =>
    have h0 := h.same (s' := { s with next := s.next + 1 }) ⟨rfl, rfl, rfl⟩
    have h1 := h0.getSeq sub1
    simp only [step, sendfile] at he
    split at he
    · cases he; exact h1.1.same ⟨rfl, rfl, rfl⟩
    rename_i hb
    have h2 := h1.2 (by simpa using hb)
    split at he
    · cases he
      exact (h2.push (stale (getSeq { s with next := s.next + 1 } sub1).1)).same ⟨rfl, rfl, rfl⟩
    generalize hA : push (setSlot (setSlot _ _ _) _ _) _ = A at he
    have hAf : Fits A 0 := by
      rw [← hA]
      refine Fits.push ?_ _
      exact h2.same ⟨rfl, rfl, rfl⟩
    have h3 := hAf.getSeq sub2
    split at he
    · cases he; exact h3.1.same ⟨rfl, rfl, rfl⟩
    · rename_i hb2
      cases he
      refine Fits.push ?_ _
      exact (h3.2 (by simpa using hb2)).same ⟨rfl, rfl, rfl⟩
  | submit n =>
    cases he
    refine ⟨(submit_eqv s n).hd h.1, ?_⟩
    rw [submit_sq, List.length_drop]
    have := h.2
    show _ + 0 ≤ s.cap
    omega
  | timeout sub =>
    simp only [step] at he
    split at he
    · cases he
    · rename_i hb
      cases he
      exact Fits.push ((h.getSeq sub).2 (by simpa using hb)) _
  | kernel i v =>
    simp only [step] at he
    split at he <;> cases he <;> exact h.same ⟨rfl, rfl, rfl⟩
  | handle =>
    simp only [step] at he
    split at he
    · cases he; exact h
    · split at he
      · cases he
      · cases he; exact h.same ⟨rfl, rfl, rfl⟩
      · have := (complete_same he).1
        exact h.same ⟨this.1, this.2, this.3⟩
  | fire k v keep sub =>
    simp only [step] at he
    split at he
    · split at he
      · cases he; exact h.same ⟨rfl, rfl, rfl⟩
      · refine rw_fits ?_ he
        exact h.same ⟨rfl, rfl, rfl⟩
    · cases he

/-- **C49 (the ring is never overrun).**  The entries that are taken and not submitted are never more than the ring has. -/
theorem uring_ring_bound {dbg : Bool} {cap : Nat} {up : Nat → Bool} {s : St} (h : Reachable dbg cap up s) : s.sq.length ≤ cap := by
  have : Fits s 0 ∧ s.cap = cap := by
    induction h with
    | refl => exact ⟨⟨Nat.le_refl _, by simp [St.sq]⟩, rfl⟩
    | tail o hr ha he ih => exact ⟨step_fits ih.1 he, (step_own ih.1.1 ha he).2.trans ih.2⟩
  have h1 := this.1.2
  rw [this.2] at h1
  exact h1

/-- **C49 (a request is refused only when the ring is full).**  An answer that is not the kernel's is -1 and there was no room for
two more entries, or it is the result of the transfer the process itself has made for a ready socket. -/
theorem uring_own_answers {dbg : Bool} {cap : Nat} {up : Nat → Bool} {s s' : St} (h : Reachable dbg cap up s) {o : Op} (ha : Allowed s o)
    (he : step dbg s o = some s') {i : Nat} {v : Int} (hm : (i, v) ∈ s'.own) :
    (i, v) ∈ s.own ∨ (v = -1 ∧ s.cap ≤ s.sq.length + 1) ∨ ∃ k keep sub, o = .fire k (some v) keep sub ∧ (s.slots k).cb = .user i :=
  (step_own (reachable_inv h).hd ha he).1 (i, v) hm

/-- **C49 (EAGAIN waits for the kernel).**  When the transfer of a ready polled socket finds nothing, the request is not tried again
until the kernel reports the socket: it gets a new entry and the socket is no longer ready (or it is refused). -/
theorem uring_again {dbg : Bool} {cap : Nat} {up : Nat → Bool} {s s' : St} (h : Reachable dbg cap up s) {k : Key} {keep : Bool} {sub : Option Nat}
    (ha : Allowed s (.fire k none keep sub)) (he : step dbg s (.fire k none keep sub) = some s') {i : Nat} (hi : (s.slots k).cb = .user i) :
    (s'.slots k).ready = false ∧ (((s'.slots k).flag = true ∧ .op k ⟨i, .poll⟩ ∈ s'.sq) ∨ (i, -1) ∈ s'.own) := by
  have hd := (reachable_inv h).hd
  simp only [step, hi] at he
  unfold rw at he
  dsimp only at he
  have hu : s.usepoll k.1 = true := ha.1
  simp only [setSlot, upd_same, upd_upd, Bool.and_false, Bool.false_and, Bool.false_eq_true, if_false, hu, if_true] at he
  generalize hS : ({ s with slots := upd s.slots k { st := k.1, cb := Cb.user i } } : St) = S at he
  have e := getSeq_eqv S sub
  have hk : (getSeq S sub).1.slots k = { st := k.1, cb := Cb.user i } := by rw [e.slots, ← hS]; exact upd_same _ _ _
  split at he
  · cases he
    refine ⟨?_, .inr (by simp [answerOwn])⟩
    simp only [answerOwn]; rw [hk]
  · cases he
    refine ⟨?_, .inl ⟨?_, ?_⟩⟩
    · simp only [push, upd_same]; rw [hk]
    · simp only [push, upd_same]
    · rw [push_sq (by exact e.hd (by rw [← hS]; exact hd))]; simp

/-! ## Concrete runs -/

/-- what can be seen of a state -/
structure Obs where
  ans : List (Nat × Int)
  next : Nat
  sq : List Sqe
  inflight : List Sqe
  pipe0 : Bool × Bool
  rec0 : Bool
  busyFile : Bool
  deriving DecidableEq, Repr

def obs (s : St) : Obs := ⟨s.ans, s.next, s.sq, s.inflight, s.pipes 0, (s.sfs 0).isSome, (s.slots (2, .r)).flag⟩

def run (dbg : Bool) (s : St) : List Op → Option St
  | [] => some s
  | o :: os => (step dbg s o).bind (run dbg · os)

def start (cap : Nat) (up : Nat → Bool) : St := { cap := cap, usepoll := up }

theorem run_free {dbg : Bool} {cap : Nat} {up : Nat → Bool} {os : List Op} {s s' : St} (h : Reachable dbg cap up s) (he : run dbg s os = some s')
    (hf : ∀ o ∈ os, o = .handle ∨ (∃ n, o = .submit n) ∨ ∃ i v, o = .kernel i v) : Reachable dbg cap up s' := by
  induction os generalizing s with
  | nil => cases he; exact h
  | cons o os ih =>
    simp only [run] at he
    cases hs : step dbg s o with
    | none => rw [hs] at he; cases he
    | some s1 =>
      rw [hs] at he
      have ha : Allowed s o := by
        rcases hf o (by simp) with rfl | ⟨n, rfl⟩ | ⟨i, v, rfl⟩ <;> trivial
      exact ih (.tail o h ha hs) he (fun o ho => hf o (by simp [ho]))

/-- a sendfile of socket 1 and file 2: reachable, answered once with the result of the socket half, everything released -/
example : ∃ s, Reachable true 4 (fun _ => false) s ∧ obs s = ⟨[(0, 100)], 1, [], [], (false, false), false, false⟩ := by
  let s0 := start 4 (fun _ => false)
  have r0 : Reachable true 4 (fun _ => false) s0 := .refl
  have a1 : Allowed s0 (.sendfile 1 2 true none none) :=
    ⟨rfl, by simp, rfl, rfl, rfl, rfl, rfl, by intro i sf h; exact absurd h (by simp [s0, start])⟩
  obtain ⟨s1, hs1⟩ : ∃ s1, step true s0 (.sendfile 1 2 true none none) = some s1 := Option.isSome_iff_exists.1 (by decide)
  have hr : (run true s0 [.sendfile 1 2 true none none, .submit 2, .kernel 1 100, .handle, .kernel 0 120, .handle]).map obs =
    some ⟨[(0, 100)], 1, [], [], (false, false), false, false⟩ := by decide +kernel
  rw [show run true s0 [.sendfile 1 2 true none none, .submit 2, .kernel 1 100, .handle, .kernel 0 120, .handle] =
    run true s1 [.submit 2, .kernel 1 100, .handle, .kernel 0 120, .handle] by rw [run, hs1]; rfl] at hr
  obtain ⟨s', h1, h2⟩ := Option.map_eq_some_iff.1 hr
  exact ⟨s', run_free (.tail _ r0 a1 hs1) h1 (by simp), h2⟩

/-- between the two halves the record is kept, one end of the pipe is closed and a splice is with the kernel -/
example : (run true (start 4 fun _ => false) [.sendfile 1 2 true none none, .submit 2, .kernel 1 100, .handle]).map obs =
    some ⟨[], 1, [], [.op (2, .r) ⟨0, .sfFile⟩], (false, true), true, true⟩ := by decide +kernel

/-- a polled socket: the poll makes it ready, the process reads EAGAIN and polls again, then reads 7 bytes -/
example : (run true (start 4 fun _ => true) [.rw (1, .r) true none, .submit 1, .kernel 0 1, .handle, .fire (1, .r) none false none,
    .submit 1, .kernel 0 1, .handle, .fire (1, .r) (some 7) true none]).map obs = some ⟨[(0, 7)], 1, [], [], (false, false), false, false⟩ := by
  decide +kernel

/-- a full ring whose submission fails refuses a read, and answers it -/
example : (run true (start 1 fun _ => false) [.rw (1, .r) true none, .rw (3, .r) true none]).map obs =
    some ⟨[(1, -1)], 2, [.op (1, .r) ⟨0, .data⟩], [], (false, false), false, false⟩ := by decide +kernel

/-! ## Findings -/

/-- **Finding (C49).** When `pipe2` fails, `sendfile` returns after taking a submission entry that it never prepares
(src/kiouring_selector.c:473-481); the entry still holds an old request, which the kernel executes again: a read that was answered with 5
is answered a second time with 7, into a buffer that its owner may have freed. -/
example : (run false (start 1 fun _ => false) [.rw (1, .r) true none, .submit 1, .kernel 0 5, .handle, .sendfile 3 4 false none none,
    .submit 1, .kernel 0 7, .handle]).map obs = some ⟨[(0, 5), (1, -1), (0, 7)], 2, [], [], (false, false), false, false⟩ := by decide +kernel

/-- **Finding (C49).** If the entry was never used its `user_data` is zero, and handling the completion dereferences it. -/
example : (run false (start 1 fun _ => false) [.sendfile 3 4 false none none, .submit 1, .kernel 0 0]).isSome = true ∧
    (run false (start 1 fun _ => false) [.sendfile 3 4 false none none, .submit 1, .kernel 0 0, .handle]).isSome = false := by decide +kernel

/-- **Finding (C49).** `iouring_add_timeout` does not test the entry it gets (src/kiouring_selector.c:359-364): with a full ring and a
failing submission it prepares a NULL entry. -/
example : (run false (start 1 fun _ => false) [.rw (1, .r) true none, .timeout none]).isSome = false := by decide +kernel

/-- **Finding (C49).** When there is no room for the second splice of a sendfile the caller is told -1 although the first splice is
queued: the file stays busy and its position moves (src/kiouring_selector.c:499-504). -/
example : (run true (start 1 fun _ => false) [.sendfile 1 2 true none none]).map obs =
    some ⟨[(0, -1)], 1, [.op (2, .r) ⟨0, .sfFile⟩], [], (true, true), true, true⟩ := by decide +kernel

/-- **Finding (C49).** A write request without a buffer (waiting for the socket to be writable) leaves `e->buffer == &null_buffer`; a
sendfile does not reset it, so a sendfile that has sent 100 bytes is reported as 0 (src/kiouring_selector.c:282, 505-509, 379). -/
example : (run true (start 4 fun _ => false) [.rw (1, .w) false none, .submit 1, .kernel 0 1, .handle, .sendfile 1 2 true none none,
    .submit 2, .kernel 0 100, .handle, .kernel 0 100, .handle]).map (·.ans) = some [(0, 0), (1, 0)] := by decide +kernel

/-- **Finding (C49).** A sendfile keeps its caller's callback in the write event of the file: an `aio_write` of that file started while
the sendfile runs replaces it; its callback is called twice and the sendfile's never. -/
example : (run true (start 4 fun _ => false) [.sendfile 1 2 true none none, .plain (2, .w) none, .submit 3, .kernel 2 50, .handle,
    .kernel 0 100, .handle, .kernel 0 100, .handle]).map (·.ans) = some [(1, 50), (1, 100)] := by decide +kernel

end Kasync.Uring
