import Verif.Udp.Model

/-!
# C55: datagram sockets

Every datagram the kernel has queued for the socket is handed to exactly one read, in order, as a whole up to the size of the read's buffers and with
its own sender; every read is answered exactly once; a read never waits while a datagram is there; the destination reported for a datagram is its own.
-/

namespace Kasync.Udp

/-! ## Specification -/

/-- The size of what the kernel knows of a datagram: a `struct sockaddr_in` is 16 bytes, a `struct sockaddr_in6` 28, two of them the family;
`ipi_ifindex` and `ipi_spec_dst` are 8 bytes, an IPv4 address 4, an IPv6 address 16. -/
def Shape (f : Fam) (d : Dgram) : Prop :=
  match f with
  | .v4 => d.peer.length = 14 ∧ d.route.length = 8 ∧ d.dst.length = 4
  | .v6 => d.peer.length = 26 ∧ d.dst.length = 16

/-- A socket address in memory: AF_INET (2) or AF_INET6 (10) as two bytes, then port and address. -/
def sender (f : Fam) (d : Dgram) : Bytes :=
  (match f with | .v4 => [2, 0] | .v6 => [10, 0]) ++ d.peer

/-- The reads answered (in order) have been given the datagrams `ds` (in order), one each: the bytes that fit, their number, and the sender.  The other
reads have failed. -/
inductive Delivered (f : Fam) : List Comp → List Dgram → Prop where
  | nil : Delivered f [] []
  | got {cs ds} (c : Comp) (d : Dgram) : Delivered f cs ds → c.out = .got (d.data.take c.cap).length (d.data.take c.cap) →
      c.addr.take (sender f d).length = sender f d → Delivered f (cs ++ [c]) (ds ++ [d])
  | fail {cs ds} (c : Comp) : Delivered f cs ds → (∀ n b, c.out ≠ .got n b) → Delivered f (cs ++ [c]) ds

/-- Steps of an execution: all the datagrams that arrive have the shape of the family. -/
def StepOk (f : Fam) : Step → Prop
  | .arrive d => Shape f d
  | _ => True

/-- Reachable from a new socket by any steps. -/
inductive Reach (p : Poller) (f : Fam) (pkt so : Bool) (junk : Bytes) (ok : Step → Prop) : St → Prop where
  | new : Reach p f pkt so junk ok (new p f pkt so junk)
  | step {s s'} (t : Step) : Reach p f pkt so junk ok s → StepOk f t → ok t → step s t = some s' → Reach p f pkt so junk ok s'

/-! ## Bytes -/

theorem blit_length (m : Bytes) (i : Nat) (src : Bytes) (h : i ≤ m.length) : (blit m i src).length = m.length := by
  simp only [blit, List.length_append, List.length_take, List.length_drop]
  omega

theorem blit_zero (m src : Bytes) (h : src.length ≤ m.length) : blit m 0 src = src ++ m.drop src.length := by
  simp [blit, List.take_of_length_le h]

theorem getD_append_left' (a b : Bytes) (i : Nat) (h : i < a.length) : (a ++ b).getD i 0 = a.getD i 0 := by
  simp [List.getD_eq_getElem?_getD, List.getElem?_append_left h]

/-! ## One receive -/

/-- The code of the family in memory. -/
def code : Fam → Nat
  | .v4 => 2
  | .v6 => 10

theorem from_eq (f : Fam) (d : Dgram) : d.from f = sender f d := by
  cases f <;> rfl

/-- What the memory of the connection always looks like. -/
structure Mem (s : St) : Prop where
  addrLen : s.addr.length = 28
  fam : leAt s.addr 0 2 = 0 ∨ leAt s.addr 0 2 = code s.fam
  q : ∀ d ∈ s.queue, Shape s.fam d

theorem sender_length {f : Fam} {d : Dgram} (h : Shape f d) : (sender f d).length = if f = .v4 then 16 else 28 := by
  cases f <;> simp_all [sender, Shape]

/-- The sender always fits into the room the kernel is given for it. -/
theorem namelen_enough {s : St} (h : Mem s) {d : Dgram} (hd : Shape s.fam d) : (d.from s.fam).take (addrLen s.addr) = sender s.fam d := by
  rw [from_eq]
  refine List.take_of_length_le ?_
  rw [sender_length hd]
  rcases h.fam with h1 | h1 <;> unfold addrLen <;> rw [h1] <;> cases s.fam <;> simp [code, sizeV4, sizeV6]

theorem sender_code (f : Fam) (d : Dgram) (rest : Bytes) : leAt (sender f d ++ rest) 0 2 = code f := by
  cases f <;> rfl

/-- What a receive does, in all cases. -/
theorem recvmsg_cases (s : St) (h : Mem s) (a : Sys) :
    (∃ d q, a = .normal ∧ s.queue = d :: q ∧ recvmsg s a = ({ s with
        queue := q
        addr := sender s.fam d ++ s.addr.drop (sender s.fam d).length
        ext := s.ext.map fun _ => blit (List.replicate sizeExt 0) 0 ((cmsg s.fam s.pktOn d).take sizePkt) }, .dgram d)) ∨
    (∃ g, recvmsg s a = ({ s with ext := s.ext.map fun _ => List.replicate sizeExt 0 }, g) ∧
      ((a = .normal ∧ s.queue = [] ∧ g = .eagain) ∨ (a = .eintr ∧ g = .eintr) ∨ (a = .enomem ∧ g = .enomem) ∨ (a = .other ∧ g = .other))) := by
  cases a with
  | normal =>
    cases hq : s.queue with
    | nil => right; exact ⟨.eagain, by simp [recvmsg, hq], by simp⟩
    | cons d q =>
      left
      have hd : Shape s.fam d := h.q d (by rw [hq]; exact List.mem_cons_self)
      refine ⟨d, q, rfl, rfl, ?_⟩
      have h1 := namelen_enough h hd
      have h2 : blit s.addr 0 (sender s.fam d) = sender s.fam d ++ s.addr.drop (sender s.fam d).length := by
        refine blit_zero _ _ ?_
        rw [h.addrLen, sender_length hd]; split <;> omega
      simp only [recvmsg, hq, h1, h2]
      cases s.ext <;> rfl
  | eintr => right; exact ⟨.eintr, rfl, by simp⟩
  | enomem => right; exact ⟨.enomem, rfl, by simp⟩
  | other => right; exact ⟨.other, rfl, by simp⟩

/-- The block for packet information after it was cleared. -/
def cleared (s : St) : Option Bytes := s.ext.map fun _ => List.replicate sizeExt 0

/-- What a read event does, in all cases. -/
theorem readEvent_cases (s : St) (h : Mem s) (a : Sys) (ctl : Bool) :
    (∃ d q, a = .normal ∧ s.queue = d :: q ∧ readEvent s a ctl = { s with
        read := false
        queue := q
        addr := sender s.fam d ++ s.addr.drop (sender s.fam d).length
        ext := s.ext.map fun _ => blit (List.replicate sizeExt 0) 0 ((cmsg s.fam s.pktOn d).take sizePkt)
        done := s.done ++ [⟨s.rid, s.cap, .got (min d.data.length s.cap) (d.data.take s.cap), sender s.fam d ++ s.addr.drop (sender s.fam d).length⟩] }) ∨
    (((a = .normal ∧ s.queue = []) ∨ a = .eintr) ∧ readEvent s a ctl = arm { s with rready := false, read := true, ext := cleared s } ctl) ∨
    (∃ o, ((a = .enomem ∧ o = .nomem) ∨ (a = .other ∧ o = .err)) ∧
      readEvent s a ctl = { s with ext := cleared s, read := false }.finish o) := by
  have hm : Mem { s with read := false } := ⟨h.1, h.2, h.3⟩
  rcases recvmsg_cases _ hm a with ⟨d, q, ha, hq, he⟩ | ⟨g, he, hg⟩
  · left
    refine ⟨d, q, ha, hq, ?_⟩
    dsimp only [readEvent]
    rw [he]
    rfl
  · right
    dsimp only [readEvent]
    rw [he]
    rcases hg with ⟨h1, h2, hg⟩ | ⟨h1, hg⟩ | ⟨h1, hg⟩ | ⟨h1, hg⟩ <;> subst hg
    · left; exact ⟨.inl ⟨h1, h2⟩, rfl⟩
    · left; exact ⟨.inr h1, rfl⟩
    · right; exact ⟨.nomem, .inl ⟨h1, rfl⟩, rfl⟩
    · right; exact ⟨.err, .inr ⟨h1, rfl⟩, rfl⟩

/-! ## The invariant -/

/-- What a connection made with the room `junk` for packet information holds there: nothing ever received, the last receive found nothing, or the
last datagram taken. -/
def ExtOk (pkt : Bool) (junk : Bytes) (s : St) (ds : List Dgram) : Prop :=
  match s.ext with
  | none => pkt = false
  | some m => pkt = true ∧ ((m = junk ∧ ds = []) ∨ m = List.replicate sizeExt 0 ∨
      ∃ d ds', ds = ds' ++ [d] ∧ Shape s.fam d ∧ m = blit (List.replicate sizeExt 0) 0 ((cmsg s.fam s.pktOn d).take sizePkt))

structure Inv (p : Poller) (f : Fam) (pkt so : Bool) (junk : Bytes) (s : St) : Prop where
  mem : Mem s
  po : s.poller = p
  fa : s.fam = f
  on : s.pktOn = (pkt && so)
  ids : s.done.map (·.id) ++ (if s.read then [s.rid] else []) = List.range s.next
  del : ∃ ds, s.arrived = ds ++ s.queue ∧ Delivered f s.done ds ∧ ExtOk pkt junk s ds

theorem inv_new (p : Poller) (f : Fam) (pkt so : Bool) (junk : Bytes) : Inv p f pkt so junk (new p f pkt so junk) := by
  refine ⟨⟨by simp [new, sizeV6], .inl rfl, by simp [new]⟩, rfl, rfl, rfl, rfl, [], rfl, .nil, ?_⟩
  cases pkt <;> simp [new, ExtOk]

section
variable {p : Poller} {f : Fam} {pkt so : Bool} {junk : Bytes}

/-- Steps that leave alone what the invariant is about. -/
theorem Inv.same {s s' : St} (h : Inv p f pkt so junk s) (h1 : s'.addr = s.addr) (h2 : s'.queue = s.queue) (h3 : s'.poller = s.poller)
    (h4 : s'.fam = s.fam) (h5 : s'.pktOn = s.pktOn) (h6 : s'.done = s.done) (h7 : s'.read = s.read) (h8 : s'.rid = s.rid) (h9 : s'.next = s.next)
    (h10 : s'.arrived = s.arrived) (h11 : s'.ext = s.ext) : Inv p f pkt so junk s' := by
  obtain ⟨⟨a, b, c⟩, d, e, g, i, ds, j, k, l⟩ := h
  refine ⟨⟨by rw [h1]; exact a, by rw [h1, h4]; exact b, by rw [h2, h4]; exact c⟩, by rw [h3]; exact d, by rw [h4]; exact e, by rw [h5]; exact g,
    by rw [h6, h7, h8, h9]; exact i, ds, by rw [h10, h2]; exact j, by rw [h6]; exact k, ?_⟩
  unfold ExtOk at *
  rw [h11, h4, h5]; exact l

/-- A read that fails. -/
theorem Inv.fail {s : St} (h : Inv p f pkt so junk s) (hr : s.read = true) (o : Out) (ho : ∀ n b, o ≠ .got n b) :
    Inv p f pkt so junk ({ s with read := false }.finish o) := by
  obtain ⟨m, d, e, g, i, ds, j, k, l⟩ := h
  refine ⟨⟨m.1, m.2, m.3⟩, d, e, g, ?_, ds, j, .fail _ k ho, l⟩
  simp [St.finish, hr] at i ⊢; exact i

theorem Inv.arm {s : St} (h : Inv p f pkt so junk s) (hr : s.read = true) (ctl : Bool) : Inv p f pkt so junk (arm s ctl) := by
  unfold Udp.arm
  split
  · split
    · exact h
    · split
      · exact h.same rfl rfl rfl rfl rfl rfl rfl rfl rfl rfl rfl
      · have h' : Inv p f pkt so junk { s with rev := true } := h.same rfl rfl rfl rfl rfl rfl rfl rfl rfl rfl rfl
        exact h'.fail hr .noPoll (by simp)
  · split
    · exact h.same rfl rfl rfl rfl rfl rfl rfl rfl rfl rfl rfl
    · exact h.fail hr .noPoll (by simp)

theorem Inv.clear {s : St} (h : Inv p f pkt so junk s) : Inv p f pkt so junk { s with ext := cleared s } := by
  obtain ⟨m, h2, h3, h4, h5, ds, h6, h7, h8⟩ := h
  refine ⟨⟨m.1, m.2, m.3⟩, h2, h3, h4, h5, ds, h6, h7, ?_⟩
  unfold ExtOk cleared at *
  cases hx : s.ext with
  | none => rw [hx] at h8; exact h8
  | some b => rw [hx] at h8; exact ⟨h8.1, .inr (.inl rfl)⟩

theorem Inv.readEvent {s : St} (h : Inv p f pkt so junk s) (hr : s.read = true) (a : Sys) (ctl : Bool) : Inv p f pkt so junk (readEvent s a ctl) := by
  rcases readEvent_cases s h.mem a ctl with ⟨d, q, ha, hq, he⟩ | ⟨_, he⟩ | ⟨o, ho, he⟩
  · rw [he]
    have hd : Shape s.fam d := h.mem.q d (by rw [hq]; exact List.mem_cons_self)
    obtain ⟨⟨m1, m2, m3⟩, h2, h3, h4, h5, ds, h6, h7, h8⟩ := h
    refine ⟨⟨?_, ?_, ?_⟩, h2, h3, h4, ?_, ds ++ [d], ?_, ?_, ?_⟩
    · simp only [List.length_append, List.length_drop, m1, sender_length hd]; split <;> omega
    · right; exact sender_code _ _ _
    · intro x hx; exact m3 x (by rw [hq]; exact List.mem_cons_of_mem _ hx)
    · simp [hr] at h5 ⊢; exact h5
    · dsimp only; rw [h6, hq]; simp
    · refine .got _ d h7 ?_ ?_
      · simp [Nat.min_comm]
      · rw [← h3]; simp
    · unfold ExtOk at *
      cases hx : s.ext with
      | none => rw [hx] at h8; exact h8
      | some b => rw [hx] at h8; exact ⟨h8.1, .inr (.inr ⟨d, ds, rfl, hd, rfl⟩)⟩
  · rw [he]
    refine Inv.arm ?_ rfl ctl
    exact h.clear.same rfl rfl rfl rfl rfl rfl hr.symm rfl rfl rfl rfl
  · rw [he]
    exact h.clear.fail hr o (by rcases ho with ⟨_, ho⟩ | ⟨_, ho⟩ <;> subst ho <;> simp)

theorem Inv.step {s s' : St} (h : Inv p f pkt so junk s) (t : Step) (ht : StepOk f t) (he : step s t = some s') : Inv p f pkt so junk s' := by
  cases t with
  | arrive d =>
    simp only [Udp.step, Option.some.injEq] at he; subst he
    obtain ⟨⟨m1, m2, m3⟩, h2, h3, h4, h5, ds, h6, h7, h8⟩ := h
    refine ⟨⟨m1, m2, ?_⟩, h2, h3, h4, h5, ds, by simp [arrive, h6], h7, h8⟩
    intro x hx
    simp only [arrive, List.mem_append, List.mem_singleton] at hx
    rcases hx with hx | hx
    · exact m3 x hx
    · subst hx
      simp only [arrive]; rw [h3]; exact ht
  | read cap main a ctl =>
    simp only [Udp.step] at he
    split at he
    · exact absurd he (by simp)
    · rename_i hr
      simp only [Option.some.injEq] at he; subst he
      have h' : Inv p f pkt so junk { s with rid := s.next, next := s.next + 1, cap := cap, read := true } := by
        obtain ⟨m, h2, h3, h4, h5, ds, h6, h7, h8⟩ := h
        refine ⟨⟨m.1, m.2, m.3⟩, h2, h3, h4, ?_, ds, h6, h7, h8⟩
        simp [hr] at h5
        simp [h5, List.range_succ]
      unfold readReq
      dsimp only
      split
      · split
        · exact h'.same rfl rfl rfl rfl rfl rfl rfl rfl rfl rfl rfl
        · exact h'.readEvent rfl a ctl
      · exact h'.arm rfl ctl
  | poll =>
    simp only [Udp.step, Option.some.injEq] at he; subst he
    unfold poll
    split <;> split <;> first | exact h | exact h.same rfl rfl rfl rfl rfl rfl rfl rfl rfl rfl rfl
  | serve a ctl =>
    simp only [Udp.step, Option.some.injEq] at he; subst he
    unfold serve
    have h' : Inv p f pkt so junk { s with ready := false } := h.same rfl rfl rfl rfl rfl rfl rfl rfl rfl rfl rfl
    split
    · dsimp only
      split
      · rename_i hx
        exact h'.readEvent (by simp at hx; exact hx.2) a ctl
      · exact h'
    · exact h

theorem inv_reach {ok : Step → Prop} {s : St} (h : Reach p f pkt so junk ok s) : Inv p f pkt so junk s := by
  induction h with
  | new => exact inv_new ..
  | step t _ h1 _ h2 ih => exact ih.step t h1 h2

/-! ## C55 -/

/-- **C55.** In every execution the datagrams that have arrived are the ones handed to reads, each to one read and in the order of arrival, followed by
the ones still waiting: none is lost, duplicated or reordered.  Each read that got one has exactly its bytes, up to the size of its buffers, the number of
them, and in the connection the address it came from. -/
theorem udp_delivered {s : St} (h : Reach p f pkt so junk (fun _ => True) s) :
    ∃ ds, s.arrived = ds ++ s.queue ∧ Delivered f s.done ds := by
  obtain ⟨ds, h1, h2, _⟩ := (inv_reach h).del
  exact ⟨ds, h1, h2⟩

/-- **C55.** Reads are answered in the order they were made, each exactly once, and the only one unanswered is the last, if one is pending. -/
theorem udp_answered_once {s : St} (h : Reach p f pkt so junk (fun _ => True) s) :
    s.done.map (·.id) = List.range (if s.read then s.next - 1 else s.next) := by
  have hi := (inv_reach h).ids
  split
  · rename_i hr
    simp only [hr, if_true] at hi
    have hl := congrArg List.length hi
    simp only [List.length_append, List.length_map, List.length_singleton, List.length_range] at hl
    obtain ⟨n, hn⟩ : ∃ n, s.next = n + 1 := ⟨s.done.length, hl.symm⟩
    rw [hn, List.range_succ] at hi
    have := (List.append_inj' hi (by simp)).1
    rw [hn]; exact this
  · rename_i hr
    simpa [hr] using hi

/-- The sizes asked for by the reads of a list of steps. -/
def caps : List Step → List Nat
  | [] => []
  | .read cap _ _ _ :: ts => cap :: caps ts
  | _ :: ts => caps ts

/-- The sizes of the reads answered and of the pending one. -/
def sizes (s : St) : List Nat := s.done.map (·.cap) ++ if s.read then [s.cap] else []

theorem sizes_arm {s : St} (hr : s.read = true) (ctl : Bool) : sizes (arm s ctl) = sizes s := by
  unfold arm
  split
  · split
    · rfl
    · split
      · rfl
      · simp [sizes, St.finish, hr]
  · split
    · rfl
    · simp [sizes, St.finish, hr]

theorem sizes_readEvent {s : St} (hm : Mem s) (hr : s.read = true) (a : Sys) (ctl : Bool) : sizes (readEvent s a ctl) = sizes s := by
  rcases readEvent_cases s hm a ctl with ⟨d, q, ha, hq, he⟩ | ⟨_, he⟩ | ⟨o, ho, he⟩
  · rw [he]; simp [sizes, hr]
  · rw [he, sizes_arm rfl]; simp [sizes, hr]
  · rw [he]; simp [sizes, St.finish, hr]

theorem sizes_step {s s' : St} (hm : Mem s) (t : Step) (he : step s t = some s') : sizes s' = sizes s ++ caps [t] := by
  cases t with
  | arrive d => simp only [Udp.step, Option.some.injEq] at he; subst he; simp only [caps, List.append_nil]; rfl
  | read cap main a ctl =>
    simp only [Udp.step] at he
    split at he
    · cases he
    · rename_i hr
      simp only [Option.some.injEq] at he; subst he
      have hb : sizes { s with rid := s.next, next := s.next + 1, cap := cap, read := true } = sizes s ++ caps [.read cap main a ctl] := by
        simp [sizes, hr, caps]
      rw [← hb]
      unfold readReq
      dsimp only
      split
      · split
        · rfl
        · exact sizes_readEvent (s := { s with rid := s.next, next := s.next + 1, cap := cap, read := true }) ⟨hm.1, hm.2, hm.3⟩ rfl a ctl
      · exact sizes_arm rfl ctl
  | poll =>
    simp only [Udp.step, Option.some.injEq] at he; subst he
    unfold poll
    split <;> split <;> simp [sizes, caps]
  | serve a ctl =>
    simp only [Udp.step, Option.some.injEq] at he; subst he
    unfold serve
    split
    · dsimp only
      split
      · rename_i hx
        rw [sizes_readEvent (s := { s with ready := false }) ⟨hm.1, hm.2, hm.3⟩ (by simp at hx; exact hx.2)]
        simp [sizes, caps]
      · simp [sizes, caps]
    · simp [sizes, caps]

/-- **C55.** Each answer is for the buffers of its own read: the reads answered and the pending one are the reads made, in order. -/
theorem udp_answers_requests {ts : List Step} (ht : ∀ t ∈ ts, StepOk f t) {s : St} (h : run (new p f pkt so junk) ts = some s) :
    s.done.map (·.cap) ++ (if s.read then [s.cap] else []) = caps ts := by
  have gen : ∀ (ts : List Step) (s0 : St), Inv p f pkt so junk s0 → (∀ t ∈ ts, StepOk f t) → run s0 ts = some s → sizes s = sizes s0 ++ caps ts := by
    intro ts
    induction ts with
    | nil => intro s0 _ _ h; simp only [run, Option.some.injEq] at h; subst h; simp [caps]
    | cons t ts ih =>
      intro s0 hi ht h
      simp only [run, Option.bind_eq_some_iff] at h
      obtain ⟨s1, h1, h2⟩ := h
      rw [ih s1 (hi.step t (ht t List.mem_cons_self) h1) (fun x hx => ht x (List.mem_cons_of_mem _ hx)) h2, sizes_step hi.mem t h1, List.append_assoc]
      congr 1
      cases t <;> rfl
  have := gen ts _ (inv_new ..) ht h
  simpa [sizes, new] using this

/-! ### No read waits in vain -/

/-- Steps in which the kernel grants registrations and, with epoll, interrupts no receive (a non-blocking one is not). -/
def Calm (p : Poller) : Step → Prop
  | .read _ _ a ctl => (p = .epoll → a ≠ .eintr) ∧ ctl = true
  | .serve a ctl => (p = .epoll → a ≠ .eintr) ∧ ctl = true
  | _ => True

/-- A read pending is on the ready list, or the poller has an event for it or will get one with the next datagram. -/
structure Live (s : St) : Prop where
  rr : s.ready = true → s.rready = true ∧ s.read = true
  wait : s.read = true → s.rready = true → s.ready = true
  ep : s.poller = .epoll → (s.rev = true → s.reg = true) ∧ (s.reg = true → s.rready = false → s.queue ≠ [] → s.edge = true) ∧
    (s.read = true → s.rready = false → s.rev = true)
  ur : s.poller = .uring → (s.cqe = true ∨ s.polling = true → s.read = true ∧ s.rready = false) ∧ (s.cqe = true → s.polling = false) ∧
    (s.read = true → s.rready = false → s.cqe = true ∨ (s.polling = true ∧ s.queue = []))

theorem Live.arm {s : St} (h0 : s.read = true) (h1 : s.rready = false) (h2 : s.ready = false)
    (h3 : s.poller = .epoll → (s.rev = true → s.reg = true) ∧ (s.reg = true → s.queue ≠ [] → s.edge = true)) : Live (arm s true) := by
  unfold Udp.arm
  split
  · rename_i hp
    split
    · rename_i hr
      refine ⟨by simp [h2], by simp [h1], fun _ => ⟨(h3 hp).1, fun a _ b => (h3 hp).2 a b, fun _ _ => hr⟩, by simp [hp]⟩
    · refine ⟨by simp [h2], by simp [h1], fun _ => ⟨fun _ => rfl, ?_, fun _ _ => rfl⟩, by simp [hp]⟩
      intro _ _ hq
      simp only [if_true] at hq ⊢
      cases hq' : s.queue with
      | nil => exact absurd hq' hq
      | cons => rfl
  · rename_i hp
    simp only [if_true]
    refine ⟨by simp [h2], by simp [h1], by simp [hp], fun _ => ⟨fun _ => ⟨h0, h1⟩, ?_⟩⟩
    cases s.queue <;> simp

theorem Live.readEvent {s : St} (hm : Mem s) (hr : s.ready = false) (hrr : s.rready = true) (h1 : s.poller = .epoll → s.rev = true → s.reg = true)
    (h2 : s.poller = .uring → s.cqe = false ∧ s.polling = false) (a : Sys) (ha : s.poller = .epoll → a ≠ .eintr) : Live (readEvent s a true) := by
  rcases readEvent_cases s hm a true with ⟨d, q, _, hq, he⟩ | ⟨hx, he⟩ | ⟨o, ho, he⟩
  · rw [he]
    exact ⟨by simp [hr], by simp, fun hp => ⟨h1 hp, by simp [hrr], by simp⟩, fun hp => ⟨by simp [h2 hp], by simp [h2 hp], by simp⟩⟩
  · rw [he]
    refine Live.arm rfl rfl hr fun hp => ⟨h1 hp, fun _ hne => ?_⟩
    rcases hx with hx | hx
    · exact absurd hx.2 hne
    · exact absurd hx (ha hp)
  · rw [he]
    exact ⟨by simp [St.finish, hr], by simp [St.finish], fun hp => ⟨h1 hp, by simp [St.finish, hrr], by simp [St.finish]⟩,
      fun hp => ⟨by simp [St.finish, h2 hp], by simp [St.finish, h2 hp], by simp [St.finish]⟩⟩

theorem Live.step {s s' : St} (hm : Mem s) (h : Live s) (t : Step) (hc : Calm s.poller t) (he : step s t = some s') : Live s' := by
  cases t with
  | arrive d =>
    simp only [Udp.step, Option.some.injEq] at he; subst he
    refine ⟨h.rr, h.wait, fun hp => ⟨(h.ep hp).1, fun a _ _ => by simp only [arrive] at a ⊢; simp [a], (h.ep hp).2.2⟩,
      fun hp => ⟨fun hx => ?_, fun _ => rfl, fun a b => ?_⟩⟩
    · refine (h.ur hp).1 ?_
      simpa [arrive] using hx
    · rcases (h.ur hp).2.2 a b with h1 | h1
      · left; simp [arrive, h1]
      · left; simp [arrive, h1.1]
  | read cap main a ctl =>
    simp only [Udp.step] at he
    obtain ⟨hc1, hc2⟩ := hc
    subst hc2
    split at he
    · exact absurd he (by simp)
    · rename_i hr
      have hrdy : s.ready = false := by
        cases hx : s.ready with
        | false => rfl
        | true => exact absurd (h.rr hx).2 hr
      have hcq : s.poller = .uring → s.cqe = false ∧ s.polling = false := by
        intro hp
        have := (h.ur hp).1
        cases h1 : s.cqe <;> cases h2 : s.polling <;> simp_all
      simp only [Option.some.injEq] at he; subst he
      unfold readReq
      dsimp only
      split
      · rename_i hrr
        split
        · exact ⟨fun _ => ⟨hrr, rfl⟩, fun _ _ => rfl, fun hp => ⟨(h.ep hp).1, (h.ep hp).2.1, by simp [hrr]⟩, fun hp => ⟨by simp [hcq hp], by simp [hcq hp], by simp [hrr]⟩⟩
        · exact Live.readEvent (s := { s with rid := s.next, next := s.next + 1, cap := cap, read := true }) ⟨hm.1, hm.2, hm.3⟩ hrdy hrr (fun hp => (h.ep hp).1) hcq a hc1
      · rename_i hrr
        simp only [Bool.not_eq_true] at hrr
        exact Live.arm rfl hrr hrdy fun hp => ⟨(h.ep hp).1, fun a b => (h.ep hp).2.1 a hrr b⟩
  | poll =>
    simp only [Udp.step, Option.some.injEq] at he; subst he
    unfold poll
    split
    · rename_i hp
      split
      · refine ⟨fun hx => ⟨rfl, ?_⟩, by simp +contextual, fun _ => ⟨(h.ep hp).1, by simp, by simp⟩, by simp [hp]⟩
        simp only [Bool.or_eq_true] at hx
        rcases hx with hx | hx
        · exact (h.rr hx).2
        · exact hx
      · exact h
    · rename_i hp
      split
      · rename_i hx
        have h1 := (h.ur hp).1 (.inl hx)
        have h2 := (h.ur hp).2.1 hx
        exact ⟨fun _ => ⟨rfl, h1.1⟩, fun _ _ => rfl, by simp [hp], fun _ => ⟨by simp [h2], by simp, by simp⟩⟩
      · exact h
  | serve a ctl =>
    simp only [Udp.step, Option.some.injEq] at he; subst he
    obtain ⟨hc1, hc2⟩ := hc
    subst hc2
    unfold serve
    split
    · rename_i hx
      obtain ⟨h1, h2⟩ := h.rr hx
      have hcq : s.poller = .uring → s.cqe = false ∧ s.polling = false := by
        intro hp
        have := (h.ur hp).1
        cases h3 : s.cqe <;> cases h4 : s.polling <;> simp_all
      dsimp only
      rw [if_pos (by simp [h1, h2])]
      exact Live.readEvent (s := { s with ready := false }) ⟨hm.1, hm.2, hm.3⟩ rfl h1 (fun hp => (h.ep hp).1) hcq a hc1
    · exact h

theorem live_reach {s : St} (h : Reach p f pkt so junk (Calm p) s) : Live s := by
  induction h with
  | new => exact ⟨by simp [new], by simp [new], fun _ => by simp [new], fun _ => by simp [new]⟩
  | step t hr h1 h2 h3 ih =>
    have hi := inv_reach hr
    exact ih.step hi.mem t (by rw [hi.po]; exact h2) h3

theorem Reach.weaken {ok ok' : Step → Prop} (hw : ∀ t, ok t → ok' t) {s : St} (h : Reach p f pkt so junk ok s) : Reach p f pkt so junk ok' s := by
  induction h with
  | new => exact .new
  | step t _ h1 h2 h3 ih => exact .step t ih h1 (hw t h2) h3

theorem serve_ready {s : St} (hm : Mem s) (h1 : s.ready = true) (h2 : s.rready = true) (h3 : s.read = true) {d : Dgram} {q : List Dgram}
    (hq : s.queue = d :: q) (ctl : Bool) : (serve s .normal ctl).read = false ∧ (serve s .normal ctl).queue = q ∧
      ∃ c, (serve s .normal ctl).done = s.done ++ [c] ∧ c.id = s.rid ∧ c.cap = s.cap ∧ c.out = .got (d.data.take s.cap).length (d.data.take s.cap) := by
  unfold serve
  rw [if_pos h1]
  dsimp only
  rw [if_pos (by simp [h2, h3])]
  rcases readEvent_cases { s with ready := false } ⟨hm.1, hm.2, hm.3⟩ .normal ctl with ⟨d', q', _, hq', he⟩ | ⟨hx, he⟩ | ⟨o, ho, he⟩
  · rw [he]
    dsimp only at hq'
    rw [hq] at hq'
    obtain ⟨rfl, rfl⟩ := List.cons.inj hq'
    exact ⟨rfl, rfl, _, rfl, rfl, rfl, by simp [Nat.min_comm]⟩
  · simp [hq] at hx
  · simp at ho

/-- **C55.** A read never waits while a datagram is there: as soon as the selector polls and serves its ready list, the pending read is given the first
datagram waiting. -/
theorem udp_no_lost_wakeup {s : St} (h : Reach p f pkt so junk (Calm p) s) {d : Dgram} {q : List Dgram} (hr : s.read = true) (hq : s.queue = d :: q)
    (ctl : Bool) : ∃ s', run s [.poll, .serve .normal ctl] = some s' ∧ s'.read = false ∧ s'.queue = q ∧
      ∃ c, s'.done = s.done ++ [c] ∧ c.id = s.rid ∧ c.cap = s.cap ∧ c.out = .got (d.data.take s.cap).length (d.data.take s.cap) := by
  have hl := live_reach h
  have hi := inv_reach h
  have hp : (poll s).rready = true ∧ (poll s).ready = true := by
    unfold poll
    cases hrr : s.rready with
    | true =>
      have hrd := hl.wait hr hrr
      split <;> split <;> simp [hrr, hrd]
    | false =>
      split
      · rename_i hp
        have h1 := hl.ep hp
        have h2 := h1.2.1 (h1.1 (h1.2.2 hr hrr)) hrr (by simp [hq])
        simp [h2, hr]
      · rename_i hp
        rcases (hl.ur hp).2.2 hr hrr with h2 | h2
        · simp [h2]
        · rw [hq] at h2; simp at h2
  have hf : (poll s).queue = s.queue ∧ (poll s).done = s.done ∧ (poll s).read = s.read ∧ (poll s).rid = s.rid ∧ (poll s).cap = s.cap := by
    unfold poll; split <;> split <;> simp
  obtain ⟨f1, f2, f3, f4, f5⟩ := hf
  have hm := (hi.step .poll trivial rfl).mem
  have := serve_ready hm hp.2 hp.1 (f3.trans hr) (f1.trans hq) ctl
  rw [f2, f4, f5] at this
  exact ⟨_, rfl, this⟩

/-! ### Where a datagram was sent to -/

theorem blit_ext (x : Bytes) (h : x.length ≤ 32) : blit (List.replicate sizeExt 0) 0 (x.take sizePkt) = x ++ List.replicate (40 - x.length) 0 := by
  have : x.take sizePkt = x := List.take_of_length_le h
  rw [this, blit_zero _ _ (by simp [sizeExt]; omega), List.drop_replicate]
  rfl

/-- The control data of an IPv4 datagram as `kudp_get_recvaddr` reads them. -/
theorem cmsg_read {d : Dgram} (hd : Shape .v4 d) (m : Bytes) (hm : m = blit (List.replicate sizeExt 0) 0 ((cmsg .v4 true d).take sizePkt)) :
    leAt m 8 4 = 0 ∧ leAt m 12 4 = 8 ∧ (m.drop 24).take 4 = d.dst := by
  obtain ⟨_, h2, h3⟩ := hd
  rw [blit_ext _ (by simp [cmsg, leBytes, h2, h3])] at hm
  subst hm
  obtain ⟨data, peer, route, dst⟩ := d
  dsimp only at h2 h3
  refine ⟨by rfl, by rfl, ?_⟩
  have e : cmsg .v4 true ⟨data, peer, route, dst⟩ = (leBytes 8 28 ++ leBytes 4 0 ++ leBytes 4 8 ++ route) ++ dst := rfl
  rw [e, List.append_assoc, List.drop_left' (by simp [leBytes, h2]), List.take_left' h3]

/-- A 4-byte or 16-byte address put into a socket address: only these bytes change. -/
def putAddr (addr : Bytes) (off : Nat) (ip : Bytes) : Bytes := addr.take off ++ ip ++ addr.drop (off + ip.length)

theorem arm_done (s : St) (ctl : Bool) : (arm s ctl).done = s.done ∨ ∃ c : Comp, (arm s ctl).done = s.done ++ [c] ∧ c.out = .noPoll := by
  unfold arm
  split
  · split
    · exact .inl rfl
    · split
      · exact .inl rfl
      · exact .inr ⟨_, rfl, rfl⟩
  · split
    · exact .inl rfl
    · exact .inr ⟨_, rfl, rfl⟩

theorem self_append {α} {l : List α} {x : α} (h : l = l ++ [x]) : False := by
  have := congrArg List.length h; simp at this

theorem last_eq {α} {l l' : List α} {x y : α} (h : l ++ [x] = l' ++ [y]) : x = y := by
  have := (List.append_inj' h rfl).2
  simpa using this

theorem readEvent_got {s : St} (hm : Mem s) (a : Sys) (ctl : Bool) {c : Comp} {n : Nat} {b : Bytes} (hc : (readEvent s a ctl).done = s.done ++ [c])
    (ho : c.out = .got n b) : ∃ d q, s.queue = d :: q ∧ (readEvent s a ctl).queue = q ∧ (readEvent s a ctl).ext = s.ext.map fun _ =>
      blit (List.replicate sizeExt 0) 0 ((cmsg s.fam s.pktOn d).take sizePkt) := by
  rcases readEvent_cases s hm a ctl with ⟨d, q, _, hq, he⟩ | ⟨_, he⟩ | ⟨o, hoo, he⟩
  · rw [he]; exact ⟨d, q, hq, rfl, rfl⟩
  · rw [he] at hc
    rcases arm_done { s with rready := false, read := true, ext := cleared s } ctl with h1 | ⟨c', h1, h2⟩
    · rw [h1] at hc; exact (self_append hc).elim
    · rw [h1] at hc
      rw [← last_eq hc, h2] at ho; cases ho
  · rw [he] at hc
    rw [← last_eq hc] at ho
    dsimp only at ho
    rcases hoo with ⟨_, h1⟩ | ⟨_, h1⟩ <;> rw [h1] at ho <;> cases ho

theorem step_got {s s' : St} (hm : Mem s) (t : Step) (he : step s t = some s') {c : Comp} {n : Nat} {b : Bytes} (hc : s'.done = s.done ++ [c])
    (ho : c.out = .got n b) : ∃ d q, s.queue = d :: q ∧ s'.queue = q ∧ s'.ext = s.ext.map fun _ =>
      blit (List.replicate sizeExt 0) 0 ((cmsg s.fam s.pktOn d).take sizePkt) := by
  cases t with
  | arrive d =>
    simp only [Udp.step, Option.some.injEq] at he; subst he
    exact (self_append hc).elim
  | read cap main a ctl =>
    simp only [Udp.step] at he
    split at he
    · cases he
    · simp only [Option.some.injEq] at he; subst he
      unfold readReq at *
      dsimp only at *
      split
      · rename_i h1
        rw [if_pos h1] at hc
        split
        · rename_i h2
          rw [if_pos h2] at hc
          exact (self_append hc).elim
        · rename_i h2
          rw [if_neg h2] at hc
          exact readEvent_got (s := { s with rid := s.next, next := s.next + 1, cap := cap, read := true }) ⟨hm.1, hm.2, hm.3⟩ a ctl hc ho
      · rename_i h1
        rw [if_neg h1] at hc
        rcases arm_done { s with rid := s.next, next := s.next + 1, cap := cap, read := true } ctl with h1 | ⟨c', h1, h2⟩
        · rw [h1] at hc; exact (self_append hc).elim
        · rw [h1] at hc
          rw [← last_eq hc, h2] at ho; cases ho
  | poll =>
    simp only [Udp.step, Option.some.injEq] at he; subst he
    have : (poll s).done = s.done := by unfold poll; split <;> split <;> rfl
    rw [this] at hc
    exact (self_append hc).elim
  | serve a ctl =>
    simp only [Udp.step, Option.some.injEq] at he; subst he
    unfold serve at *
    split
    · rename_i h1
      rw [if_pos h1] at hc
      dsimp only at *
      split
      · rename_i h2
        rw [if_pos h2] at hc
        exact readEvent_got (s := { s with ready := false }) ⟨hm.1, hm.2, hm.3⟩ a ctl hc ho
      · rename_i h2
        rw [if_neg h2] at hc
        exact (self_append hc).elim
    · rename_i h1
      rw [if_neg h1] at hc
      exact (self_append hc).elim

theorem blit_eq {m : Bytes} {i : Nat} {src : Bytes} (h : i + src.length ≤ m.length) : blit m i src = putAddr m i src := by
  simp only [blit, putAddr]
  rw [List.take_of_length_le (l := src) (by omega)]

theorem leAt_inet {addr : Bytes} (hf : addr.take 2 = [2, 0]) : leAt addr 0 2 = 2 := by
  match addr, hf with
  | [_, _], hf => simp at hf; simp [hf, leAt]
  | a :: b :: c, hf => simp at hf; simp [hf, leAt]

/-- **C55.** When a read of a socket made with KSOCKET_IP_PKTINFO is given an IPv4 datagram, `kudp_get_recvaddr` with an IPv4 address puts the address that
very datagram was sent to into it, and changes nothing else of it. -/
theorem udp_recvaddr_exact {s s' : St} (h : Reach p .v4 true true junk (fun _ => True) s) (t : Step) (he : step s t = some s')
    {c : Comp} {n : Nat} {b : Bytes} (hc : s'.done = s.done ++ [c]) (ho : c.out = .got n b) {addr : Bytes} (ha : addr.length = 28)
    (hf : addr.take 2 = [2, 0]) : ∃ d q, s.queue = d :: q ∧ s'.queue = q ∧ getRecvAddr s' addr = some (putAddr addr 4 d.dst) := by
  have hi := inv_reach h
  obtain ⟨d, q, h1, h2, h3⟩ := step_got hi.mem t he hc ho
  refine ⟨d, q, h1, h2, ?_⟩
  obtain ⟨ds, _, _, hx⟩ := hi.del
  have hd : Shape s.fam d := hi.mem.q d (by rw [h1]; exact List.mem_cons_self)
  rw [hi.fa] at hd h3
  rw [hi.on] at h3
  unfold ExtOk at hx
  cases hs : s.ext with
  | none => rw [hs] at hx; cases hx
  | some m =>
    rw [hs] at h3
    have h4 := cmsg_read hd _ rfl
    simp only [getRecvAddr, h3, Option.map_some, leAt_inet hf, if_true, Bool.and_self]
    rw [if_pos ⟨h4.1, h4.2.1⟩, h4.2.2, blit_eq]
    have := hd.2.2
    omega

/-- **C55.** The answer stays the same until the next read: no other step changes it while no read is pending. -/
theorem udp_recvaddr_stable {s s' : St} (h : Reach p f pkt so junk (fun _ => True) s) (hr : s.read = false) (t : Step)
    (ht : ∀ cap main a ctl, t ≠ .read cap main a ctl) (he : step s t = some s') (addr : Bytes) : getRecvAddr s' addr = getRecvAddr s addr := by
  have : s'.ext = s.ext := by
    cases t with
    | arrive d => simp only [Udp.step, Option.some.injEq] at he; subst he; rfl
    | read cap main a ctl => exact absurd rfl (ht cap main a ctl)
    | poll => simp only [Udp.step, Option.some.injEq] at he; subst he; unfold poll; split <;> split <;> rfl
    | serve a ctl => simp only [Udp.step, Option.some.injEq] at he; subst he; unfold serve; simp [hr]; split <;> rfl
  simp only [getRecvAddr, this]

theorem leAt_zero (k i n : Nat) : leAt (List.replicate k 0) i n = 0 := by
  induction n generalizing i with
  | zero => rfl
  | succ n ih => simp only [leAt, ih]; simp [List.getD_eq_getElem?_getD, List.getElem?_replicate]; split <;> rfl

theorem getRecv_zero {s : St} (h : s.ext = some (List.replicate sizeExt 0)) (addr : Bytes) : getRecvAddr s addr = none := by
  simp only [getRecvAddr, h, leAt_zero]; simp

/-- **C55.** An address is taken only from a control message whose level *and* type are those of the address's family: 0 and 8 (IP_PKTINFO) for IPv4, 41 and 50 (IPV6_PKTINFO) for others. -/
theorem udp_recvaddr_kind {s : St} {addr r : Bytes} (h : getRecvAddr s addr = some r) :
    ∃ m, s.ext = some m ∧ ((leAt addr 0 2 = 2 ∧ leAt m 8 4 = 0 ∧ leAt m 12 4 = 8) ∨ (leAt addr 0 2 ≠ 2 ∧ leAt m 8 4 = 41 ∧ leAt m 12 4 = 50)) := by
  unfold getRecvAddr at h
  split at h
  · cases h
  · rename_i m hm
    refine ⟨m, hm, ?_⟩
    split at h
    · rename_i hf
      split at h
      · rename_i hc; exact Or.inl ⟨hf, hc⟩
      · cases h
    · rename_i hf
      split at h
      · rename_i hc; exact Or.inr ⟨hf, hc⟩
      · cases h

/-- **C55.** An answer is never stale: once a first datagram was taken, `kudp_get_recvaddr` either fails or gives the destination of the last datagram taken
(and only for an IPv4 address and an IPv4 datagram). -/
theorem udp_recvaddr_sound {s : St} (h : Reach p f pkt so junk (fun _ => True) s) {addr r : Bytes} (ha : addr.length = 28)
    (hg : getRecvAddr s addr = some r) (hne : s.arrived ≠ s.queue) :
    ∃ ds d, s.arrived = ds ++ [d] ++ s.queue ∧ f = .v4 ∧ addr.take 2 = [2, 0] ∧ r = putAddr addr 4 d.dst := by
  have hi := inv_reach h
  obtain ⟨ds, h1, _, hx⟩ := hi.del
  unfold ExtOk at hx
  cases hs : s.ext with
  | none => simp [getRecvAddr, hs] at hg
  | some m =>
    rw [hs] at hx
    obtain ⟨hp, ⟨_, h2⟩ | h2 | ⟨d, ds', h2, hd, h3⟩⟩ := hx
    · rw [h2] at h1; exact absurd h1 hne
    · rw [getRecv_zero (by rw [hs, h2])] at hg; cases hg
    · refine ⟨ds', d, by rw [h1, h2], ?_⟩
      rw [hi.fa] at hd h3
      cases hf : f with
      | v6 =>
        rw [hf] at h3
        have : m = List.replicate sizeExt 0 := by rw [h3]; cases s.pktOn <;> rfl
        rw [getRecv_zero (by rw [hs, this])] at hg; cases hg
      | v4 =>
        rw [hf] at h3 hd
        cases ho : s.pktOn with
        | false =>
          rw [ho] at h3
          have : m = List.replicate sizeExt 0 := by rw [h3]; rfl
          rw [getRecv_zero (by rw [hs, this])] at hg; cases hg
        | true =>
          rw [ho] at h3
          have h4 := cmsg_read hd m h3
          simp only [getRecvAddr, hs] at hg
          split at hg
          · rename_i h5
            rw [if_pos ⟨h4.1, h4.2.1⟩, h4.2.2, blit_eq (by have := hd.2.2; omega)] at hg
            refine ⟨rfl, ?_, (Option.some.inj hg).symm⟩
            match addr, ha, h5 with
            | a :: b :: rest, _, h5 =>
              simp [leAt] at h5
              have ha' := a.toNat_lt
              have hb' := b.toNat_lt
              have e1 : a.toNat = 2 := by omega
              have e2 : b.toNat = 0 := by omega
              simp [← UInt8.toNat_inj, e1, e2]
          · rw [h4.1, h4.2.1] at hg; simp at hg

/-- **C55.** Without KSOCKET_IP_PKTINFO `kudp_get_recvaddr` always fails. -/
theorem udp_recvaddr_without {s : St} (h : Reach p f false so junk (fun _ => True) s) (addr : Bytes) : getRecvAddr s addr = none := by
  obtain ⟨ds, h1, _, hx⟩ := (inv_reach h).del
  unfold ExtOk at hx
  cases hs : s.ext with
  | none => simp [getRecvAddr, hs]
  | some m => rw [hs] at hx; simp at hx

/-! ### Sending -/

/-- **C55.** `kudp_send_to` sends one datagram or none, and tells which: to exactly the address given, with exactly the bytes given. -/
theorem udp_send_exact (f : Fam) (ok : Bool) (d : Dgram) (hd : Shape f d) (rest package : Bytes) (hr : (sender f d ++ rest).length = 28) :
    ((sendTo ok (sender f d ++ rest) package package.length).1 = true ∧ (sendTo ok (sender f d ++ rest) package package.length).2 = [(sender f d, package)]) ∨
    ((sendTo ok (sender f d ++ rest) package package.length).1 = false ∧ (sendTo ok (sender f d ++ rest) package package.length).2 = []) := by
  cases ok with
  | false => right; exact ⟨rfl, rfl⟩
  | true =>
    left
    refine ⟨rfl, ?_⟩
    have hl := sender_length hd
    simp only [sendTo, if_true, List.take_length]
    congr 2
    have : addrLen (sender f d ++ rest) = (sender f d).length := by
      rw [hl]; unfold addrLen; rw [sender_code]; cases f <;> rfl
    rw [this, List.take_left]

end

/-! ## Non-vacuity -/

/-- Two datagrams from two senders. -/
def dg1 : Dgram := ⟨[1, 2, 3, 4, 5], [0, 53, 10, 0, 0, 1, 0, 0, 0, 0, 0, 0, 0, 0], [2, 0, 0, 0, 10, 0, 0, 9], [10, 0, 0, 255]⟩
def dg2 : Dgram := ⟨[7], [0, 80, 10, 0, 0, 2, 0, 0, 0, 0, 0, 0, 0, 0], [2, 0, 0, 0, 10, 0, 0, 9], [10, 0, 0, 9]⟩

/-- A read waits, both datagrams arrive, it gets the first (cut to 3 bytes), the next read on the main fiber the second. -/
def demo : List Step := [.read 3 true .normal true, .arrive dg1, .arrive dg2, .poll, .serve .normal true, .read 100 true .normal true, .serve .normal true]

example (p : Poller) : (run (new p .v4 true true (List.replicate 40 170)) demo).map (fun s => (s.done.map (fun c => (c.id, c.out)), s.queue.length)) =
    some ([(0, .got 3 [1, 2, 3]), (1, .got 1 [7])], 0) := by
  cases p <;> decide +kernel

example (p : Poller) : (run (new p .v4 true true (List.replicate 40 170)) demo).map (fun s => s.addr.take 16) = some (sender .v4 dg2) := by
  cases p <;> decide +kernel

example (p : Poller) : (run (new p .v4 true true (List.replicate 40 170)) demo).bind (fun s => getRecvAddr s ([2, 0, 9, 9] ++ List.replicate 24 1)) =
    some ([2, 0, 9, 9, 10, 0, 0, 9] ++ List.replicate 20 1) := by
  cases p <;> decide +kernel

theorem reach_of_run {p : Poller} {f : Fam} {pkt so : Bool} {junk : Bytes} {ok : Step → Prop} {s s' : St} (h : Reach p f pkt so junk ok s) (ts : List Step)
    (ht : ∀ t ∈ ts, StepOk f t ∧ ok t) (hr : run s ts = some s') : Reach p f pkt so junk ok s' := by
  induction ts generalizing s with
  | nil => simp only [run, Option.some.injEq] at hr; subst hr; exact h
  | cons t ts ih =>
    simp only [run, Option.bind_eq_some_iff] at hr
    obtain ⟨s1, h1, h2⟩ := hr
    have := ht t List.mem_cons_self
    exact ih (.step t h this.1 this.2 h1) (fun x hx => ht x (List.mem_cons_of_mem _ hx)) h2

/-- The hypotheses of `udp_no_lost_wakeup` are met: a read waits, a datagram is there. -/
example (p : Poller) : ∃ s, Reach p .v4 true true [] (Calm p) s ∧ s.read = true ∧ s.queue = [dg1] := by
  refine ⟨_, reach_of_run .new [.read 3 true .normal true, .arrive dg1] ?_ rfl, ?_⟩
  · simp [StepOk, Calm, Shape, dg1]
  · cases p <;> exact ⟨rfl, rfl⟩

/-- IPv6. -/
def dg6 : Dgram := ⟨[9, 9], List.replicate 26 3, [], List.replicate 16 4⟩

example (p : Poller) : (run (new p .v6 true true (List.replicate 40 170)) [.arrive dg6, .read 8 false .normal true, .poll, .serve .normal true]).map
    (fun s => (s.done.map (fun c => c.out), s.addr)) = some ([.got 2 [9, 9]], sender .v6 dg6) := by
  cases p <;> decide +kernel

/-! ## Findings -/

/-- **Finding (C55).** The room for packet information is allocated and not cleared: until the first read, `kudp_get_recvaddr` may report success and hand
out what happened to be in that memory. -/
theorem recvaddr_before_first_read : ∃ junk, junk.length = 40 ∧
    getRecvAddr (new .epoll .v4 true true junk) ([2, 0] ++ List.replicate 26 0) = some ([2, 0, 0, 0, 1, 2, 3, 4] ++ List.replicate 20 0) :=
  ⟨List.replicate 12 0 ++ [8, 0, 0, 0] ++ List.replicate 8 0 ++ [1, 2, 3, 4] ++ List.replicate 12 0, by decide, by decide⟩

/-- **Finding (C55).** On an IPv6 socket `kudp_get_recvaddr` never works once something was received: only IP_PKTINFO is asked for (src/kudp.c:86), never
IPV6_RECVPKTINFO. -/
theorem recvaddr_never_v6 {p : Poller} {pkt so : Bool} {junk : Bytes} {s : St} (h : Reach p .v6 pkt so junk (fun _ => True) s) {addr : Bytes} (ha : addr.length = 28)
    (hne : s.arrived ≠ s.queue) : getRecvAddr s addr = none := by
  cases hg : getRecvAddr s addr with
  | none => rfl
  | some r =>
    obtain ⟨_, _, _, h2, _⟩ := udp_recvaddr_sound h ha hg hne
    cases h2

/-- **Finding (C55).** EINTR is treated like EAGAIN (src/kselectable.c:190-193): STF_RREADY is cleared although datagrams are waiting, and as epoll is
edge-triggered the read waits until another one arrives. -/
theorem eintr_loses_the_event : ∃ s, Reach .epoll .v4 false false [] (fun _ => True) s ∧ s.read = true ∧ s.queue = [dg1] ∧
    ∀ n, (run s ((List.replicate n [Step.poll, Step.serve .normal true]).flatten)).map (fun s => (s.read, s.done)) = some (true, []) := by
  refine ⟨_, reach_of_run .new [.read 3 true .normal true, .arrive dg1, .poll, .serve .eintr true] ?_ rfl, rfl, rfl, ?_⟩
  · simp [StepOk, Shape, dg1]
  · intro n
    induction n with
    | zero => rfl
    | succ n ih => exact ih

/-- **Finding (C55).** If `epoll_ctl` fails once the read fails, but STF_REV stays set (src/kepoll_selector.c:102-108): the socket is never registered and the
next read waits for ever. -/
theorem failed_registration_hangs : ∃ s, Reach .epoll .v4 false false [] (fun _ => True) s ∧ s.read = true ∧ s.reg = false ∧ s.edge = false ∧ s.queue = [dg1] ∧
    s.done.map (·.out) = [.noPoll] := by
  refine ⟨_, reach_of_run .new [.read 3 true .normal false, .read 3 true .normal true, .arrive dg1] ?_ rfl, rfl, rfl, rfl, rfl, rfl⟩
  simp [StepOk, Shape, dg1]

/-- **Finding (C55).** A datagram cut to the buffers is not distinguished from one that just fits: `msg_flags` (MSG_TRUNC) is not looked at. -/
theorem truncation_not_reported (p : Poller) (d : Dgram) (tail : Bytes) :
    (run (new p .v4 false false []) [.arrive d, .read d.data.length true .normal true, .poll, .serve .normal true]).map (fun s => s.done.map (·.out)) =
    (run (new p .v4 false false []) [.arrive { d with data := d.data ++ tail }, .read d.data.length true .normal true, .poll, .serve .normal true]).map
      (fun s => s.done.map (·.out)) := by
  cases p <;> simp [run, step, arrive, new, readReq, arm, poll, serve, readEvent, recvmsg, St.finish]

end Kasync.Udp
