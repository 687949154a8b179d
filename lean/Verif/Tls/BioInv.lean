import Verif.Tls.BioLemmas

/-! # Invariant of the BIO data path -/

namespace Kasync.Tls.Bio

open KBuf (Byte WF stream Tight useds growsU)

/-- name of the pending read -/
def Rd.id? : Rd → Option Nat
  | .idle => none
  | .sock id _ _ => some id
  | .ready id _ => some id

/-- name of the pending write -/
def Wr.id? : Wr → Option Nat
  | .idle => none
  | .sock id _ => some id
  | .ready id _ => some id

def Rd.socks : Rd → Nat
  | .sock _ _ _ => 1
  | _ => 0

def Wr.socks : Wr → Nat
  | .sock _ _ => 1
  | _ => 0

/-- buffers and byte histories -/
structure Core (s : St) : Prop where
  rwf : WF s.rb
  rcs : 0 < s.rb.chunkSize
  rsh : RB s.rb
  wwf : WF s.wb
  wcs : 0 < s.wb.chunkSize
  wti : Tight s.wb
  hwire : s.wire ++ stream s.wb = s.produced
  hfed : s.fed ++ stream s.rb = s.recv
  hshut : s.shut = s.ended
  heofs : ∀ p ∈ s.eofs, p.1 = p.2
  heofs' : s.eofs ≠ [] → s.ended = true

/-- everything OpenSSL's BIO calls leave alone -/
structure Same (s s' : St) : Prop where
  shut : s'.shut = s.shut
  err : s'.err = s.err
  rd : s'.rd = s.rd
  wr : s'.wr = s.wr
  wready2 : s'.wready2 = s.wready2
  wgot : s'.wgot = s.wgot
  alloc : s'.alloc = s.alloc
  next : s'.next = s.next
  rans : s'.rans = s.rans
  wans : s'.wans = s.wans
  notes : s'.notes = s.notes
  reqs : s'.reqs = s.reqs
  recv : s'.recv = s.recv
  wire : s'.wire = s.wire
  ended : s'.ended = s.ended
  hprod : ∃ x, s'.produced = s.produced ++ x
  hrb : stream s.rb = [] → s'.rb = s.rb
  hgrow : growsU (useds s.wb) (useds s'.wb)
  hoff : s'.wb.readOff = s.wb.readOff

theorem Same.rfl' (s : St) : Same s s :=
  ⟨rfl, rfl, rfl, rfl, rfl, rfl, rfl, rfl, rfl, rfl, rfl, rfl, rfl, rfl, rfl, ⟨[], by simp⟩, fun _ => rfl, KBuf.growsU_refl _, rfl⟩

theorem Same.trans {a b c : St} (h : Same a b) (k : Same b c) : Same a c := by
  refine ⟨by rw [k.shut, h.shut], by rw [k.err, h.err], by rw [k.rd, h.rd], by rw [k.wr, h.wr], by rw [k.wready2, h.wready2],
    by rw [k.wgot, h.wgot], by rw [k.alloc, h.alloc], by rw [k.next, h.next], by rw [k.rans, h.rans], by rw [k.wans, h.wans],
    by rw [k.notes, h.notes], by rw [k.reqs, h.reqs], by rw [k.recv, h.recv], by rw [k.wire, h.wire], by rw [k.ended, h.ended],
    ?_, ?_, KBuf.growsU_trans h.hgrow k.hgrow, by rw [k.hoff, h.hoff]⟩
  · obtain ⟨x, hx⟩ := h.hprod
    obtain ⟨y, hy⟩ := k.hprod
    exact ⟨x ++ y, by rw [hy, hx, List.append_assoc]⟩
  · intro hs
    have := h.hrb hs
    rw [k.hrb (by rw [this]; exact hs), this]

theorem doAct_spec (junk : Nat → Byte) {s : St} (h : Core s) (a : Act) :
    ∃ s', doAct junk s a = some s' ∧ Core s' ∧ Same s s' := by
  cases a with
  | w bs =>
    obtain ⟨wb, e, w, st, z, t, g, o⟩ := KBuf.writeStr_tight junk bs h.wwf h.wcs h.wti
    refine ⟨{ s with wb := wb, produced := s.produced ++ bs }, by simp [doAct, bioWrite, e], ?_, ?_⟩
    · exact ⟨h.rwf, h.rcs, h.rsh, w, by rw [z]; exact h.wcs, t, by simp only [st]; rw [← List.append_assoc, h.hwire], h.hfed,
        h.hshut, h.heofs, h.heofs'⟩
    · exact ⟨rfl, rfl, rfl, rfl, rfl, rfl, rfl, rfl, rfl, rfl, rfl, rfl, rfl, rfl, rfl, ⟨bs, rfl⟩, fun _ => rfl, g, o⟩
  | r n =>
    obtain ⟨rb, out, e, w, sh, st, z, o1, o2⟩ := read_rb h.rwf h.rsh n
    by_cases ho : out = []
    · obtain ⟨hrb, -⟩ := o2 (o1 ho)
      subst hrb
      cases hs : s.shut with
      | false =>
        refine ⟨s, ?_, h, Same.rfl' s⟩
        simp only [doAct, bioRead, e, ho, List.length_nil, if_true, hs, Bool.false_eq_true, if_false]
        rw [← hs]
      | true =>
        refine ⟨{ s with eofs := s.eofs ++ [(s.fed.length, s.recv.length)] }, by simp [doAct, bioRead, e, ho, hs], ?_, ?_⟩
        · refine ⟨h.rwf, h.rcs, h.rsh, h.wwf, h.wcs, h.wti, h.hwire, h.hfed, h.hshut, ?_, fun _ => by rw [← h.hshut]; exact hs⟩
          intro p hp
          rcases List.mem_append.1 hp with hp | hp
          · exact h.heofs p hp
          · simp only [List.mem_singleton] at hp
            subst hp
            have := h.hfed
            rw [o1 ho] at this
            simp only
            rw [← this]; simp
        · exact ⟨rfl, rfl, rfl, rfl, rfl, rfl, rfl, rfl, rfl, rfl, rfl, rfl, rfl, rfl, rfl, ⟨[], by simp⟩, fun _ => rfl,
            KBuf.growsU_refl _, rfl⟩
    · have hl : out.length ≠ 0 := by simpa using ho
      refine ⟨{ s with rb := rb, fed := s.fed ++ out }, by simp [doAct, bioRead, e, ho], ?_, ?_⟩
      · exact ⟨w, by rw [z]; exact h.rcs, sh, h.wwf, h.wcs, h.wti, h.hwire, by simp only; rw [List.append_assoc, st, h.hfed],
          h.hshut, h.heofs, h.heofs'⟩
      · exact ⟨rfl, rfl, rfl, rfl, rfl, rfl, rfl, rfl, rfl, rfl, rfl, rfl, rfl, rfl, rfl, ⟨[], by simp⟩,
          fun hs => absurd (o2 hs).2 ho, KBuf.growsU_refl _, rfl⟩

theorem runActs_spec (junk : Nat → Byte) : ∀ (as : List Act) {s : St}, Core s →
    ∃ s', runActs junk s as = some s' ∧ Core s' ∧ Same s s'
  | [], s, h => ⟨s, rfl, h, Same.rfl' s⟩
  | a :: as, s, h => by
    obtain ⟨s1, e1, c1, f1⟩ := doAct_spec junk h a
    obtain ⟨s2, e2, c2, f2⟩ := runActs_spec junk as c1
    exact ⟨s2, by simp [runActs, e1, e2], c2, f1.trans f2⟩

/-- how often the request `i` is answered or pending -/
def tally (s : St) (i : Nat) : Nat :=
  (s.rans.map (·.1)).count i + (s.wans.map (·.1)).count i + (if s.rd.id? = some i then 1 else 0) +
    (if s.wr.id? = some i then 1 else 0)

/-- the captured iovecs -/
def IovOk (s : St) : Prop := ∀ id lens, s.wr = .sock id lens →
  lens ≠ [] ∧ (∀ l ∈ lens, 0 < l) ∧ lens.length ≤ maxIov ∧ lensOk (useds s.wb) s.wb.readOff lens

structure Inv (s : St) : Prop where
  core : Core s
  rsock : ∀ id buf len, s.rd = .sock id buf len →
    len = s.rb.chunkSize ∧ stream s.rb = [] ∧ ∃ c, s.rb.chunks = [c] ∧ c.used = 0 ∧ s.rb.writeOff = some 0
  wsock : IovOk s
  wready : ∀ id buf, s.wr = .ready id buf → s.wready2 = true ∧
    ∃ r ∈ s.reqs, r.id = id ∧ r.got = s.wgot ∧ r.mark ≤ s.wire.length
  wgot : ∀ id lens, s.wr = .sock id lens → ∃ r ∈ s.reqs, r.id = id ∧ r.got = s.wgot
  stale : s.wready2 = true → s.err = true ∨ ∃ id buf, s.wr = .ready id buf
  marks : ∀ r ∈ s.reqs, r.mark ≤ s.produced.length ∧ r.id < s.next
  reqN : (s.reqs.map (·.id)).Nodup
  alloc : s.alloc = s.rd.socks + s.wr.socks
  ids : ∀ i, tally s i = if i < s.next then 1 else 0
  ans : ∀ p ∈ s.wans, 0 < p.2 → ∃ r ∈ s.reqs, r.id = p.1 ∧ r.got = p.2 ∧ r.mark ≤ s.wire.length

theorem inv_init {n : Nat} (hn : 0 < n) : Inv (start n) := by
  have hw : WF (KBuf.init n) := ⟨by simp [KBuf.init], by simp [KBuf.init], by simp [KBuf.init], by simp [KBuf.init],
    by simp [KBuf.init, KBuf.stream]⟩
  refine ⟨⟨hw, hn, rb_init n, hw, hn, KBuf.tight_init _, by simp [start, KBuf.init, KBuf.stream], by simp [start, KBuf.init, KBuf.stream],
    by simp [start], by simp [start], by simp [start]⟩, ?_, ?_, ?_, ?_, ?_, ?_, ?_, ?_, ?_, ?_⟩ <;> simp [start, IovOk, Rd.socks, Wr.socks, tally, Rd.id?, Wr.id?]

/-- OpenSSL's BIO calls keep the invariant -/
theorem Inv.acts {s s' : St} (h : Inv s) (c : Core s') (f : Same s s') : Inv s' := by
  obtain ⟨x, hx⟩ := f.hprod
  refine ⟨c, ?_, ?_, ?_, ?_, ?_, ?_, ?_, ?_, ?_, ?_⟩
  · intro id buf len hr
    rw [f.rd] at hr
    have := h.rsock id buf len hr
    rw [f.hrb this.2.1]
    exact this
  · intro id lens hw
    rw [f.wr] at hw
    obtain ⟨a, b, c, d⟩ := h.wsock id lens hw
    refine ⟨a, b, c, ?_⟩
    rw [f.hoff]
    exact lensOk_grows f.hgrow d
  · intro id buf hw
    rw [f.wr] at hw
    rw [f.wready2, f.reqs, f.wgot, f.wire]
    exact h.wready id buf hw
  · intro id lens hw
    rw [f.wr] at hw
    rw [f.reqs, f.wgot]
    exact h.wgot id lens hw
  · rw [f.wready2, f.err, f.wr]; exact h.stale
  · intro r hr
    rw [f.reqs] at hr
    have := h.marks r hr
    rw [hx, f.next]
    refine ⟨?_, this.2⟩
    simp; omega
  · rw [f.reqs]; exact h.reqN
  · rw [f.alloc, f.rd, f.wr]; exact h.alloc
  · intro i
    have := h.ids i
    unfold tally at this ⊢
    rw [f.rans, f.wans, f.rd, f.wr, f.next]
    exact this
  · intro p hp hv
    rw [f.wans] at hp
    rw [f.reqs, f.wire]
    exact h.ans p hp hv

theorem pending_pos {b : KBuf.State} (h : WF b) : bioPending b > 0 ↔ stream b ≠ [] := by
  unfold bioPending
  have := KBuf.total_nonpos h
  constructor
  · intro hh hn
    have := this.2 hn
    omega
  · intro hn
    have := mt this.1 hn
    omega

/-- Between taking a read off the selector and answering or registering it again: everything but the pending read. -/
theorem answerR_inv {s : St} {id : Nat} {v : Int} (h : Inv { s with rd := .ready id true }) : Inv (answerR s id v) := by
  obtain ⟨c, h1, h2, h3, h4, h5, h6, h7, h8, h9, h10⟩ := h
  refine ⟨⟨c.rwf, c.rcs, c.rsh, c.wwf, c.wcs, c.wti, c.hwire, c.hfed, c.hshut, c.heofs, c.heofs'⟩, ?_, h2, h3, h4, h5, h6, h7, ?_, ?_, h10⟩
  · intro id buf len hr; simp [answerR] at hr
  · simpa [answerR, Rd.socks] using h8
  · intro i
    have := h9 i
    simp only [tally, answerR, Rd.id?, List.map_append, List.count_append, List.map_cons, List.map_nil, List.count_cons,
      List.count_nil, Option.some.injEq, reduceCtorEq, if_false, beq_iff_eq] at this ⊢
    split at this <;> split at this <;> split at this <;> grind

theorem sslRead_inv (junk : Nat → Byte) {s : St} {id : Nat} {buf : Bool} (h : Inv { s with rd := .ready id true }) :
    ∃ s', sslRead junk s id buf = some s' ∧ Inv s' := by
  obtain ⟨c, h1, h2, h3, h4, h5, h6, h7, h8, h9, h10⟩ := h
  by_cases hp : bioPending s.rb > 0
  · refine ⟨{ s with rd := .ready id buf }, by simp [sslRead, hp], ?_⟩
    exact ⟨⟨c.rwf, c.rcs, c.rsh, c.wwf, c.wcs, c.wti, c.hwire, c.hfed, c.hshut, c.heofs, c.heofs'⟩, (by simp), h2, h3, h4, h5, h6, h7,
      (by simpa [Rd.socks] using h8), (by intro i; have := h9 i; simpa [tally, Rd.id?] using this), h10⟩
  · have hs : stream s.rb = [] := by
      rw [pending_pos c.rwf] at hp
      exact Decidable.not_not.1 hp
    obtain ⟨rb, ch, e, w, sh, st, z, hc, hu, hl, ho⟩ := reserve_rb junk c.rwf c.rsh c.rcs hs
    refine ⟨{ s with rb := rb, alloc := s.alloc + 1, rd := .sock id buf s.rb.chunkSize }, by simp [sslRead, hp, e], ?_⟩
    refine ⟨⟨w, by rw [z]; exact c.rcs, sh, c.wwf, c.wcs, c.wti, c.hwire, ?_, c.hshut, c.heofs, c.heofs'⟩, ?_, h2, h3, h4, h5, h6, h7,
      ?_, (by intro i; have := h9 i; simpa [tally, Rd.id?] using this), h10⟩
    · have := c.hfed
      simp only [hs] at this
      simp only [st, this]
    · intro id' buf' len' hr
      simp only [Rd.sock.injEq] at hr
      exact ⟨by rw [← hr.2.2]; exact z.symm, st, ch, hc, hu, ho⟩
    · have := h8
      simp only [Rd.socks] at this ⊢
      omega

theorem eventRead_inv (junk : Nat → Byte) {s : St} {id : Nat} {buf : Bool} (call : Call)
    (h : Inv { s with rd := .ready id true }) (hi : s.rd = .idle) :
    ∃ s', eventRead junk s id buf call = some s' ∧ Inv s' := by
  unfold eventRead
  cases buf with
  | false => exact ⟨_, rfl, answerR_inv h⟩
  | true =>
    have hc : Core s := ⟨h.core.rwf, h.core.rcs, h.core.rsh, h.core.wwf, h.core.wcs, h.core.wti, h.core.hwire, h.core.hfed,
      h.core.hshut, h.core.heofs, h.core.heofs'⟩
    obtain ⟨s', e, c', f⟩ := runActs_spec junk call.acts hc
    have h' : Inv { s' with rd := .ready id true } := by
      refine Inv.acts h (s' := { s' with rd := .ready id true }) ?_ ?_
      · exact ⟨c'.rwf, c'.rcs, c'.rsh, c'.wwf, c'.wcs, c'.wti, c'.hwire, c'.hfed, c'.hshut, c'.heofs, c'.heofs'⟩
      · exact ⟨f.shut, f.err, rfl, f.wr, f.wready2, f.wgot, f.alloc, f.next, f.rans, f.wans, f.notes, f.reqs, f.recv, f.wire,
          f.ended, f.hprod, f.hrb, f.hgrow, f.hoff⟩
    simp only [Bool.not_true, Bool.false_eq_true, if_false, e]
    split
    · exact ⟨_, rfl, answerR_inv h'⟩
    · split
      · exact sslRead_inv junk h'
      · exact ⟨_, rfl, answerR_inv h'⟩

theorem answerW_tally {s s' : St} {id : Nat} {v : Int} (hw : s.wr.id? = some id)
    (h : ∀ i, tally s i = if i < s.next then 1 else 0) (h1 : s'.rans = s.rans) (h2 : s'.wans = s.wans) (h3 : s'.rd = s.rd)
    (h4 : s'.next = s.next) : ∀ i, tally (answerW s' id v) i = if i < s'.next then 1 else 0 := by
  intro i
  have := h i
  simp only [tally] at this
  rw [hw] at this
  simp only [tally, answerW, Wr.id?, List.map_append, List.count_append, List.map_cons, List.map_nil, List.count_cons,
      List.count_nil, Option.some.injEq, reduceCtorEq, if_false, beq_iff_eq, h1, h2, h3, h4] at this ⊢
  omega

theorem startWrite_inv (junk : Nat → Byte) {dbg : Bool} {s : St} {buf : Bool} {call : Call} (h : Inv s) (hw : s.wr = .idle) :
    (dbg = true ∧ s.wready2 = true ∧ s.err = true ∧ startWrite junk dbg s buf call = none) ∨
    ∃ s', startWrite junk dbg s buf call = some s' ∧ Inv s' := by
  by_cases hd : dbg = true ∧ s.wready2 = true
  · left
    have := h.stale hd.2
    rw [hw] at this
    refine ⟨hd.1, hd.2, by simpa using this, by simp [startWrite, hd]⟩
  right
  have hd' : (dbg && (s.wready2 || s.wr != .idle)) = false := by
    rw [hw]
    cases dbg <;> cases hh : s.wready2 <;> simp_all
  have hc : Core { s with next := s.next + 1 } := ⟨h.core.rwf, h.core.rcs, h.core.rsh, h.core.wwf, h.core.wcs, h.core.wti,
    h.core.hwire, h.core.hfed, h.core.hshut, h.core.heofs, h.core.heofs'⟩
  obtain ⟨s1, e1, c1, f1⟩ : ∃ s', (if buf = true then runActs junk { s with next := s.next + 1 } call.acts else some { s with next := s.next + 1 }) = some s' ∧
      Core s' ∧ Same { s with next := s.next + 1 } s' := by
    cases buf with
    | true => simpa using runActs_spec junk call.acts hc
    | false => exact ⟨_, by simp, hc, Same.rfl' _⟩
  generalize hg : (if buf = true then call.got else 0) = g
  have hids : ∀ i, tally s1 i = if i < s.next then 1 else 0 := by
    intro i
    have := h.ids i
    unfold tally at this ⊢
    rw [f1.rans, f1.wans, f1.rd, f1.wr]
    exact this
  have hwr1 : s1.wr = .idle := by rw [f1.wr]; exact hw
  have hrs : ∀ id buf len, s1.rd = .sock id buf len →
      len = s1.rb.chunkSize ∧ stream s1.rb = [] ∧ ∃ c, s1.rb.chunks = [c] ∧ c.used = 0 ∧ s1.rb.writeOff = some 0 := by
    intro id buf len hr
    rw [f1.rd] at hr
    have := h.rsock id buf len hr
    rw [f1.hrb this.2.1]
    exact this
  obtain ⟨x, hx⟩ := f1.hprod
  have hnext : s1.next = s.next + 1 := f1.next
  have hmarks : ∀ r ∈ s1.reqs ++ [(⟨s.next, g, s1.produced.length⟩ : Req)], r.mark ≤ s1.produced.length ∧ r.id < s1.next := by
    intro r hr
    rcases List.mem_append.1 hr with hr | hr
    · rw [f1.reqs] at hr
      have := h.marks r hr
      rw [hx, hnext]
      simp only [List.length_append]
      omega
    · simp only [List.mem_singleton] at hr
      subst hr
      exact ⟨Nat.le_refl _, by rw [hnext]; exact Nat.lt_succ_self _⟩
  have hnod : ((s1.reqs ++ [(⟨s.next, g, s1.produced.length⟩ : Req)]).map (·.id)).Nodup := by
    rw [List.map_append, List.nodup_append]
    refine ⟨by rw [f1.reqs]; exact h.reqN, by simp, ?_⟩
    intro a ha b hb
    rw [f1.reqs] at ha
    obtain ⟨r, hr, rfl⟩ := List.mem_map.1 ha
    have := (h.marks r hr).2
    simp at hb
    omega
  have hans : ∀ p ∈ s1.wans, 0 < p.2 → ∃ r ∈ s1.reqs ++ [(⟨s.next, g, s1.produced.length⟩ : Req)],
      r.id = p.1 ∧ r.got = p.2 ∧ r.mark ≤ s1.wire.length := by
    intro p hp hv
    rw [f1.wans] at hp
    obtain ⟨r, hr, h⟩ := h.ans p hp hv
    rw [f1.reqs, f1.wire]
    exact ⟨r, List.mem_append_left _ hr, h⟩
  have halloc : s1.alloc = s1.rd.socks := by
    have := h.alloc
    rw [hw] at this
    rw [f1.alloc, f1.rd]
    exact this
  have htal : ∀ i, (s1.rans.map (·.1)).count i + (s1.wans.map (·.1)).count i + (if s1.rd.id? = some i then 1 else 0) +
      (if some s.next = some i then 1 else 0) = if i < s1.next then 1 else 0 := by
    intro i
    have := hids i
    rw [hnext]
    simp only [tally, hwr1, Wr.id?, Option.some.injEq] at this ⊢
    clear * - this
    grind
  by_cases hp : bioPending s1.wb ≤ 0
  · refine ⟨{ s1 with wgot := g, reqs := s1.reqs ++ [⟨s.next, g, s1.produced.length⟩], wr := .ready s.next buf, wready2 := true }, ?_, ?_⟩
    · simp only [startWrite, hd', Bool.false_eq_true, if_false, e1, hg, hp, if_true]
    · have hs : stream s1.wb = [] := (KBuf.total_nonpos c1.wwf).1 hp
      have hwp : s1.produced.length = s1.wire.length := by
        have := c1.hwire
        rw [hs, List.append_nil] at this
        rw [this]
      refine ⟨⟨c1.rwf, c1.rcs, c1.rsh, c1.wwf, c1.wcs, c1.wti, c1.hwire, c1.hfed, c1.hshut, c1.heofs, c1.heofs'⟩, hrs, ?_, ?_, ?_, ?_, hmarks,
        hnod, ?_, htal, hans⟩
      · intro id lens hw; simp at hw
      · intro id buf' hw
        simp only [Wr.ready.injEq] at hw
        refine ⟨rfl, _, List.mem_append_right _ (List.mem_singleton.2 rfl), hw.1, rfl, ?_⟩
        simp only
        omega
      · intro id lens hw; simp at hw
      · intro _; exact Or.inr ⟨_, _, rfl⟩
      · simpa [Wr.socks] using halloc
  · refine ⟨{ s1 with wgot := g, reqs := s1.reqs ++ [⟨s.next, g, s1.produced.length⟩], alloc := s1.alloc + 1, wr := .sock s.next (iovLens s1.wb) }, ?_, ?_⟩
    · simp only [startWrite, hd', Bool.false_eq_true, if_false, e1, hg, hp]
    · have hne : s1.wb.chunks ≠ [] := by
        intro hn
        exact hp ((KBuf.total_nonpos c1.wwf).2 ((KBuf.tight_stream_nil c1.wwf c1.wti).2 hn))
      refine ⟨⟨c1.rwf, c1.rcs, c1.rsh, c1.wwf, c1.wcs, c1.wti, c1.hwire, c1.hfed, c1.hshut, c1.heofs, c1.heofs'⟩, hrs, ?_, ?_, ?_, ?_, hmarks,
        hnod, ?_, htal, hans⟩
      · intro id lens hw
        simp only [Wr.sock.injEq] at hw
        rw [← hw.2]
        exact iovLens_ok c1.wwf c1.wti hne
      · intro id lens hw; simp at hw
      · intro id lens hw
        simp only [Wr.sock.injEq] at hw
        exact ⟨_, List.mem_append_right _ (List.mem_singleton.2 rfl), hw.1, rfl⟩
      · intro hw
        left
        have := h.stale (by rw [← hw]; exact f1.wready2.symm)
        rw [‹s.wr = .idle›] at this
        simp only [reduceCtorEq, exists_const, or_false] at this
        rw [← this]
        exact f1.err
      · simp only [Wr.socks]; omega

/-- answering a write -/
theorem answerW_inv {s : St} {id : Nat} {v : Int} {n : Nat} {wb : KBuf.State} {w2 : Bool} {wire : List Byte}
    (h : Inv s) (hw : s.wr.id? = some id) (hn : n = s.rd.socks) (hww : WF wb) (hwc : 0 < wb.chunkSize) (hwt : Tight wb)
    (hwi : wire ++ stream wb = s.produced) (hle : s.wire.length ≤ wire.length) (h2 : w2 = true → s.err = true)
    (hv : 0 < v → ∃ r ∈ s.reqs, r.id = id ∧ r.got = v ∧ r.mark ≤ wire.length) :
    Inv (answerW { s with wb := wb, alloc := n, wready2 := w2, wire := wire } id v) := by
  have c := h.core
  refine ⟨⟨c.rwf, c.rcs, c.rsh, hww, hwc, hwt, hwi, c.hfed, c.hshut, c.heofs, c.heofs'⟩, h.rsock, ?_, ?_, ?_, ?_, h.marks, h.reqN, ?_,
    ?_, ?_⟩
  · intro id lens hw; simp [answerW] at hw
  · intro id lens hw; simp [answerW] at hw
  · intro id lens hw; simp [answerW] at hw
  · intro hh; exact Or.inl (h2 hh)
  · simpa [answerW, Wr.socks] using hn
  · exact answerW_tally hw h.ids rfl rfl rfl rfl
  · intro p hp hpv
    simp only [answerW] at hp ⊢
    rcases List.mem_append.1 hp with hp | hp
    · obtain ⟨r, hr, a, b, d⟩ := h.ans p hp hpv
      exact ⟨r, hr, a, b, by omega⟩
    · simp only [List.mem_singleton] at hp
      subst hp
      exact hv hpv

/-- `result_ssl_bio_write` with a failure -/
theorem resultBioWrite_fail {s : St} {id : Nat} {lens : List Nat} {v : Int} (h : Inv s) (hw : s.wr = .sock id lens) (hv : v ≤ 0) :
    ∃ s', resultBioWrite s id v = some s' ∧ Inv s' := by
  refine ⟨answerW { s with alloc := s.alloc - 1 } id v, by simp only [resultBioWrite, hv, if_true], ?_⟩
  have c := h.core
  have := answerW_inv (s := s) (id := id) (v := v) (n := s.alloc - 1) (wb := s.wb) (w2 := s.wready2) (wire := s.wire) h (by rw [hw]; rfl)
    (by have := h.alloc; rw [hw] at this; simp only [Wr.socks] at this; omega) c.wwf c.wcs c.wti c.hwire (Nat.le_refl _)
    (fun h2 => by have := h.stale h2; rw [hw] at this; simpa using this) (fun hp => by omega)
  exact this

/-- `result_ssl_bio_write` after `k` bytes were written -/
theorem resultBioWrite_ok {s : St} {id : Nat} {lens : List Nat} {k : Nat} (h : Inv s) (hw : s.wr = .sock id lens) (hk : 0 < k)
    (hle : k ≤ lens.sum) (h2 : s.wready2 = false) :
    ∃ s', resultBioWrite { s with wire := s.wire ++ (iovBytes s.wb.chunks s.wb.readOff lens).take k } id k = some s' ∧ Inv s' := by
  have c := h.core
  obtain ⟨i1, i2, i3, i4⟩ := h.wsock id lens hw
  obtain ⟨rest, hr, hl⟩ := iovBytes_prefix s.wb.chunks s.wb.readOff lens c.wwf.fits i4
  have hst : stream s.wb = iovBytes s.wb.chunks s.wb.readOff lens ++ rest := hr
  generalize iovBytes s.wb.chunks s.wb.readOff lens = bytes at hl hst
  have htake : bytes.take k ++ (stream s.wb).drop k = stream s.wb := by
    rw [hst, List.drop_append_of_le_length (by omega), ← List.append_assoc, List.take_append_drop]
  have hne : s.wb.chunks ≠ [] := by
    intro hn
    have : useds s.wb = [] := by simp [KBuf.useds, hn]
    rw [this] at i4
    cases lens with
    | nil => exact i1 rfl
    | cons l ls => exact i4
  obtain ⟨wb, flag, e, w, st, z, fl, t⟩ := KBuf.readSuccess_tight c.wwf c.wti hne k
  have hwi : (s.wire ++ bytes.take k) ++ stream wb = s.produced := by
    rw [st, List.append_assoc, htake, c.hwire]
  cases flag with
  | true =>
    refine ⟨{ s with wb := wb, wire := s.wire ++ bytes.take k, wr := .sock id (iovLens wb) }, ?_, ?_⟩
    · simp only [resultBioWrite]
      rw [if_neg (by omega)]
      simp only [Int.toNat_natCast, e]
    · refine ⟨⟨c.rwf, c.rcs, c.rsh, w, by rw [z]; exact c.wcs, t, hwi, c.hfed, c.hshut, c.heofs, c.heofs'⟩, h.rsock, ?_, ?_, ?_, ?_,
        h.marks, h.reqN, ?_, ?_, ?_⟩
      · intro id' lens' hw'
        simp only [Wr.sock.injEq] at hw'
        rw [← hw'.2]
        exact iovLens_ok w t (fl.1 rfl)
      · intro id lens hw; simp at hw
      · intro id' lens' hw'
        simp only [Wr.sock.injEq] at hw'
        have := h.wgot id lens hw
        rw [← hw'.1]
        exact this
      · intro hh; simp [h2] at hh
      · have := h.alloc
        rw [hw] at this
        simpa [Wr.socks] using this
      · intro i
        have := h.ids i
        simp only [tally, hw, Wr.id?] at this ⊢
        exact this
      · intro p hp hv
        obtain ⟨r, hr, a, b, d⟩ := h.ans p hp hv
        exact ⟨r, hr, a, b, by simp only [List.length_append]; omega⟩
  | false =>
    have hnil : wb.chunks = [] := by
      have := mt fl.2
      simp only [ne_eq, Bool.false_eq_true, not_false_eq_true, true_implies, Decidable.not_not] at this
      exact this
    refine ⟨_, ?_, answerW_inv (s := s) (id := id) (v := s.wgot) (n := s.alloc - 1) (wb := wb) (w2 := s.wready2) (wire := s.wire ++ bytes.take k) h (by rw [hw]; rfl)
      (by have := h.alloc; rw [hw] at this; simp only [Wr.socks] at this; omega) w (by rw [z]; exact c.wcs) t hwi
      (by simp only [List.length_append]; omega)
      (fun h2 => by have := h.stale h2; rw [hw] at this; simpa using this) ?_⟩
    · simp only [resultBioWrite]
      rw [if_neg (by omega)]
      simp only [Int.toNat_natCast, e]
    · intro _
      obtain ⟨r, hr, a, b⟩ := h.wgot id lens hw
      have := (h.marks r hr).1
      have hs : stream wb = [] := (KBuf.tight_stream_nil w t).2 hnil
      rw [hs, List.append_nil] at hwi
      exact ⟨r, hr, a, b, by rw [hwi]; exact this⟩

theorem writeEvent_inv {dbg : Bool} {s : St} {io : Io} (h : Inv s) (ha : Allowed s (.wEvent io)) :
    (dbg = true ∧ s.err = false ∧ (∃ id, s.wr = .ready id true) ∧ stream s.wb ≠ [] ∧ writeEvent dbg s io = none) ∨
    ∃ s', writeEvent dbg s io = some s' ∧ Inv s' := by
  have c := h.core
  obtain ⟨hi, hk⟩ := ha
  cases hw : s.wr with
  | idle => exact absurd hw hi
  | sock id lens =>
    right
    simp only [writeEvent, hw]
    cases he : s.err with
    | true => simp only [if_true]; exact resultBioWrite_fail h hw (by omega)
    | false =>
      have h2 : s.wready2 = false := by
        cases h2 : s.wready2 with
        | false => rfl
        | true => have := h.stale h2; rw [hw, he] at this; simp at this
      simp only [h2, Bool.false_eq_true, if_false]
      cases io with
      | again => exact ⟨s, rfl, h⟩
      | fail => exact resultBioWrite_fail h hw (by omega)
      | bytes k =>
        obtain ⟨k1, k2⟩ := hk k rfl id lens hw
        simp only
        have := resultBioWrite_ok h hw k1 k2 h2
        simpa only [hw, he, h2] using this
  | ready id buf =>
    obtain ⟨h2, r, hr, ra, rb, rc⟩ := h.wready id buf hw
    have key : ∀ (w2 : Bool) (v : Int), (w2 = true → s.err = true) → (0 < v → v = s.wgot) →
        Inv (answerW { s with wready2 := w2 } id v) := by
      intro w2 v hw2 hv
      exact answerW_inv (s := s) (id := id) (v := v) (n := s.alloc) (wb := s.wb) (w2 := w2) (wire := s.wire) h (by rw [hw]; rfl)
        (by have := h.alloc; rw [hw] at this; simpa [Wr.socks] using this) c.wwf c.wcs c.wti c.hwire (Nat.le_refl _) hw2
        (fun hp => ⟨r, hr, ra, by rw [rb, hv hp], rc⟩)
    simp only [writeEvent, hw]
    cases he : s.err with
    | true =>
      right
      simp only [if_true]
      have := key s.wready2 (-1) (fun _ => he) (by omega)
      exact ⟨_, rfl, this⟩
    | false =>
      simp only [h2, Bool.false_eq_true, if_false, if_true]
      cases buf with
      | false => right; exact ⟨_, rfl, by have := key false 0 (by simp) (by omega); simpa [he, hw] using this⟩
      | true =>
        simp only [if_true]
        by_cases hd : dbg = true ∧ bioPending s.wb > 0
        · left
          refine ⟨hd.1, trivial, ⟨id, rfl⟩, (pending_pos c.wwf).1 hd.2, ?_⟩
          have := hd.2
          simp [hd.1, this]
        · right
          have hdd : (dbg && decide (bioPending s.wb > 0)) = false := by
            cases dbg <;> simp_all
          refine ⟨_, by rw [hdd]; rfl, ?_⟩
          have := key false s.wgot (by simp) (by omega)
          simpa [he, hw] using this

/-- taking a read off the selector -/
theorem takeR_inv {s : St} {id : Nat} {n : Nat} {sh en : Bool} {rb : KBuf.State} {recv : List Byte} (h : Inv s) (hr : s.rd.id? = some id)
    (hn : n = s.wr.socks) (hw : WF rb) (hz : 0 < rb.chunkSize) (hsh : RB rb) (hf : s.fed ++ stream rb = recv)
    (h1 : sh = en) (h2 : s.ended = true → en = true) :
    Inv { s with alloc := n, rd := .ready id true, shut := sh, ended := en, rb := rb, recv := recv } := by
  have c := h.core
  refine ⟨⟨hw, hz, hsh, c.wwf, c.wcs, c.wti, c.hwire, hf, h1, c.heofs, fun hh => h2 (c.heofs' hh)⟩, ?_, h.wsock, h.wready, h.wgot, h.stale,
    h.marks, h.reqN, ?_, ?_, h.ans⟩
  · intro id buf len hh; simp at hh
  · simpa [Rd.socks] using hn
  · intro i
    have := h.ids i
    simp only [tally] at this ⊢
    rw [hr] at this
    exact this

theorem resultBioRead_inv (junk : Nat → Byte) {s : St} {id : Nat} {buf : Bool} {len : Nat} {bs : List Byte} (call : Call) (h : Inv s)
    (hr : s.rd = .sock id buf len) (hle : bs.length ≤ len) :
    ∃ s', resultBioRead junk s id buf bs call = some s' ∧ Inv s' := by
  have c := h.core
  obtain ⟨r1, r2, ch, r3, r4, r5⟩ := h.rsock id buf len hr
  have hn : s.alloc - 1 = s.wr.socks := by
    have := h.alloc
    rw [hr] at this
    simp only [Rd.socks] at this
    omega
  by_cases hb : bs = []
  · have := eventRead_inv junk (s := { s with alloc := s.alloc - 1, rd := .idle, shut := true, ended := true }) (id := id) (buf := buf) call
      (takeR_inv (s := s) h (by rw [hr]; rfl) hn c.rwf c.rcs c.rsh c.hfed rfl (fun _ => rfl)) rfl
    simp only [resultBioRead, hb, if_true]
    exact this
  · obtain ⟨rb, e, w, sh, st, z⟩ := arrive_rb c.rwf r3 r4 r5 hb (by omega)
    have := eventRead_inv junk (s := { s with alloc := s.alloc - 1, rd := .idle, rb := rb, recv := s.recv ++ bs }) (id := id) (buf := buf) call
      (takeR_inv (s := s) h (by rw [hr]; rfl) hn w (by rw [z]; exact c.rcs) sh (by rw [st, ← List.append_assoc, c.hfed]) c.hshut (fun h => h)) rfl
    simp only [resultBioRead, hb, if_false, e]
    exact this

/-- the three `kassert`s that can fail -/
def Trips (s : St) : Op → Prop
  | .write _ _ => s.wready2 = true ∧ s.err = true
  | .wEvent _ => s.err = false ∧ (∃ id, s.wr = .ready id true) ∧ stream s.wb ≠ []
  | .rReady pend _ => (∃ id, s.rd = .ready id true) ∧ pend = false ∧ stream s.rb = [] ∧ s.shut = false
  | _ => False

theorem step_inv (junk : Nat → Byte) {dbg : Bool} {s : St} (h : Inv s) (o : Op) (ha : Allowed s o) :
    (dbg = true ∧ Trips s o ∧ step junk dbg s o = none) ∨ ∃ s', step junk dbg s o = some s' ∧ Inv s' := by
  have c := h.core
  cases o with
  | write buf call =>
    rcases startWrite_inv junk (dbg := dbg) (buf := buf) (call := call) h ha with ⟨a, b, c, d⟩ | h
    · exact Or.inl ⟨a, ⟨b, c⟩, d⟩
    · exact Or.inr h
  | wEvent io =>
    rcases writeEvent_inv (dbg := dbg) h ha with ⟨a, b, c, d, e⟩ | h
    · exact Or.inl ⟨a, ⟨b, c, d⟩, e⟩
    · exact Or.inr h
  | hup =>
    right
    refine ⟨_, rfl, ?_⟩
    exact ⟨⟨c.rwf, c.rcs, c.rsh, c.wwf, c.wcs, c.wti, c.hwire, c.hfed, c.hshut, c.heofs, c.heofs'⟩, h.rsock, h.wsock, h.wready, h.wgot, fun _ => Or.inl rfl,
      h.marks, h.reqN, h.alloc, h.ids, h.ans⟩
  | read buf pend =>
    right
    have ha' : s.rd = .idle := ha
    have hh : ∀ b, Inv { s with next := s.next + 1, rd := .ready s.next b } := by
      intro b
      refine ⟨⟨c.rwf, c.rcs, c.rsh, c.wwf, c.wcs, c.wti, c.hwire, c.hfed, c.hshut, c.heofs, c.heofs'⟩, (by simp), h.wsock, h.wready, h.wgot, h.stale,
        ?_, h.reqN, ?_, ?_, h.ans⟩
      · intro r hr
        have := h.marks r hr
        simp only
        omega
      · have := h.alloc
        rw [ha'] at this
        exact this
      · intro i
        have := h.ids i
        simp only [tally, ha', Rd.id?, Option.some.injEq] at this ⊢
        clear * - this
        grind
    simp only [step]
    cases pend with
    | true => exact ⟨_, rfl, hh buf⟩
    | false => exact sslRead_inv junk (s := { s with next := s.next + 1 }) (hh true)
  | rSock bs call =>
    right
    obtain ⟨id, buf, len, hr, hl⟩ := ha
    simp only [step, hr]
    exact resultBioRead_inv junk call h hr hl
  | rTimeout =>
    right
    obtain ⟨id, buf, len, hr⟩ := ha
    refine ⟨{ s with notes := s.notes ++ [id] }, by simp only [step, hr], ?_⟩
    exact ⟨⟨c.rwf, c.rcs, c.rsh, c.wwf, c.wcs, c.wti, c.hwire, c.hfed, c.hshut, c.heofs, c.heofs'⟩, h.rsock, h.wsock, h.wready, h.wgot, h.stale,
      h.marks, h.reqN, h.alloc, h.ids, h.ans⟩
  | rReady pend call =>
    obtain ⟨id, buf, hr⟩ := ha
    simp only [step, hr]
    cases hg : (dbg && buf && !pend && decide (bioPending s.rb ≤ 0) && !s.shut) with
    | true =>
      left
      simp only [Bool.and_eq_true, Bool.not_eq_true', decide_eq_true_eq] at hg
      obtain ⟨⟨⟨⟨h1, h2⟩, h3⟩, h4⟩, h5⟩ := hg
      exact ⟨h1, ⟨⟨id, by rw [hr, h2]⟩, h3, (KBuf.total_nonpos c.rwf).1 h4, h5⟩, by simp⟩
    | false =>
      right
      simp only [Bool.false_eq_true, if_false]
      exact eventRead_inv junk call (s := { s with rd := .idle }) (by
        exact takeR_inv (s := s) (n := s.alloc) h (by rw [hr]; rfl) (by have := h.alloc; rw [hr] at this; simpa [Rd.socks] using this)
          c.rwf c.rcs c.rsh c.hfed c.hshut (fun h => h)) rfl

theorem reachable_inv {junk : Nat → Byte} {dbg : Bool} {n : Nat} (hn : 0 < n) {s : St} (h : Reachable junk dbg n s) : Inv s := by
  induction h with
  | refl => exact inv_init hn
  | tail o _ ha he ih =>
    rcases step_inv junk (dbg := dbg) ih o ha with ⟨_, _, e⟩ | ⟨s', e, i⟩
    · rw [e] at he; cases he
    · rw [e] at he; cases he; exact i

end Kasync.Tls.Bio
