import Verif.KBuf.SBuf

/-! # Property theorems for ks_buffer (C10) and the seek helpers (C11) -/

namespace Kasync.SBuf

/-- The bytes held in a buffer that is being written. -/
def content (s : State) : List Byte := s.mem.take s.used

structure WF (s : State) : Prop where
  used : s.used ≤ s.bufSize
  size : s.bufSize ≤ s.mem.length

/-- A use of the buffer while it is written. -/
inductive WOp where
  | write (bs : List Byte)
  /-- `ks_get_write_buffer`, store `bs` at the pointer, `ks_write_success(got)` -/
  | produce (bs : List Byte) (got : Nat)
  /-- `ks_save_point` at offset `k`: the first `k` bytes are consumed -/
  | save (k : Nat)
  deriving Repr

/-- outcome: state, bytes written, bytes consumed -/
def applyW (junk : Nat → Byte) (s : State) : WOp → Option (State × List Byte × List Byte)
  | .write bs => (writeStr junk s bs).map (fun s' => (s', bs, []))
  | .produce bs got => do
      let (s, _) ← getWriteBuffer junk s
      let s ← fill s bs
      return (writeSuccess s got, bs.take got, [])
  | .save k => (savePoint junk s k).map (fun s' => (s', [], (content s).take k))

/-- What the interface asks of the caller: not more bytes than `*len`; the save point lies in the content. -/
def AllowedW (junk : Nat → Byte) (s : State) : WOp → Prop
  | .write _ => True
  | .produce bs got => got ≤ bs.length ∧ ∀ s' len, getWriteBuffer junk s = some (s', len) → bs.length ≤ len
  | .save k => k ≤ s.used

theorem store_some {mem off bs} (h : off + bs.length ≤ mem.length) :
    store mem off bs = some (mem.take off ++ bs ++ mem.drop (off + bs.length)) := if_pos h

theorem store_length {mem off bs m} (h : store mem off bs = some m) : m.length = mem.length := by
  unfold store at h
  split at h
  · cases h; simp; omega
  · cases h

theorem fresh_length (junk n) : (fresh junk n).length = n := by simp [fresh]

theorem regrow_spec (junk) {s : State} (h : WF s) {n : Nat} (hn : s.used ≤ n) :
    ∃ s', regrow junk s n = some s' ∧ s'.used = s.used ∧ s'.bufSize = n ∧ s'.mem.length = n ∧ content s' = content s := by
  have h1 : s.used ≤ s.mem.length := Nat.le_trans h.used h.size
  have hl : (s.mem.take s.used).length = s.used := by simp; omega
  have h2 : 0 + (s.mem.take s.used).length ≤ (fresh junk n).length := by rw [hl, fresh_length]; omega
  refine ⟨⟨(fresh junk n).take 0 ++ s.mem.take s.used ++ (fresh junk n).drop (0 + (s.mem.take s.used).length), n, s.used⟩,
    ?_, rfl, rfl, ?_, ?_⟩
  · simp only [regrow, load, if_pos h1, Option.bind_eq_bind, Option.bind_some, store_some h2]
    rfl
  · show (List.take 0 _ ++ _ ++ _ : List Byte).length = n
    simp [fresh_length]; omega
  · show List.take s.used (List.take 0 _ ++ _ ++ _ : List Byte) = _
    rw [List.take_zero, List.nil_append, List.take_append_of_le_length (by omega), content, List.take_take, Nat.min_self]

theorem fill_spec {s : State} (bs : List Byte) (got : Nat) (hb : s.used + bs.length ≤ s.mem.length) (hg : got ≤ bs.length) :
    ∃ s', fill s bs = some s' ∧ s'.bufSize = s.bufSize ∧ s'.used = s.used ∧ s'.mem.length = s.mem.length ∧
      content (writeSuccess s' got) = content s ++ bs.take got := by
  refine ⟨{ s with mem := s.mem.take s.used ++ bs ++ s.mem.drop (s.used + bs.length) }, by simp [fill, store_some hb], rfl,
    rfl, store_length (store_some hb), ?_⟩
  have hl : (s.mem.take s.used).length = s.used := by simp; omega
  show List.take (s.used + got) (s.mem.take s.used ++ bs ++ _) = _
  rw [List.append_assoc, List.take_append, hl, List.take_take, Nat.min_eq_right (by omega), Nat.add_sub_cancel_left,
    List.take_append_of_le_length hg]
  rfl

theorem getWriteBuffer_spec (junk) {s : State} (h : WF s) (hz : 0 < s.bufSize) :
    ∃ s' len, getWriteBuffer junk s = some (s', len) ∧ 0 < len ∧ s'.used + len = s'.bufSize ∧ s'.used = s.used ∧
      s.bufSize ≤ s'.bufSize ∧ WF s' ∧ content s' = content s := by
  unfold getWriteBuffer
  rw [if_neg (by omega)]
  by_cases hr : 0 < s.bufSize - s.used
  · rw [if_pos hr]
    exact ⟨s, _, rfl, hr, by have := h.used; omega, rfl, Nat.le_refl _, h, rfl⟩
  · rw [if_neg hr]
    have hle := le_alignUp (s.bufSize * 2) 1024 (by omega)
    have hu := h.used
    obtain ⟨s', e, h1, h2, h3, h4⟩ := regrow_spec junk h (n := alignUp (s.bufSize * 2) 1024) (by omega)
    have h5 : 0 < s'.bufSize - s'.used := by omega
    exact ⟨s', _, by simp only [e, Option.bind_eq_bind, Option.bind_some, if_pos h5], h5, by omega, h1, by omega,
      ⟨by omega, by omega⟩, h4⟩

theorem applyW_spec (junk) {s : State} (h : WF s) (hz : 0 < s.bufSize) (o : WOp) (ha : AllowedW junk s o) :
    ∃ s' w c, applyW junk s o = some (s', w, c) ∧ WF s' ∧ 0 < s'.bufSize ∧ c ++ content s' = content s ++ w := by
  have hu := h.used
  have hs := h.size
  cases o with
  | write bs =>
    have hg : ∃ s1, guarantee junk s bs.length = some s1 ∧ s1.used = s.used ∧ s.used + bs.length ≤ s1.bufSize ∧
        s.bufSize ≤ s1.bufSize ∧ s1.bufSize ≤ s1.mem.length ∧ content s1 = content s := by
      unfold guarantee
      by_cases hf : s.used + bs.length ≤ s.bufSize
      · rw [if_pos hf]; exact ⟨s, rfl, rfl, hf, Nat.le_refl _, hs, rfl⟩
      · rw [if_neg hf]
        have hle := le_alignUp (s.used + bs.length) 1024 (by omega)
        obtain ⟨s', e, h1, h2, h3, h4⟩ := regrow_spec junk h (n := alignUp (s.used + bs.length) 1024) (by omega)
        exact ⟨s', e, h1, by omega, by omega, by omega, h4⟩
    obtain ⟨s1, e1, u1, r1, b1, m1, c1⟩ := hg
    obtain ⟨s2, e2, b2, u2, l2, c2⟩ := fill_spec (s := s1) bs bs.length (by omega) (Nat.le_refl _)
    have e3 : store s1.mem s1.used bs = some s2.mem ∧ s2 = { s1 with mem := s2.mem } := by
      simp only [fill, Option.map_eq_some_iff] at e2
      obtain ⟨m, em, rfl⟩ := e2
      exact ⟨em, rfl⟩
    refine ⟨writeSuccess s2 bs.length, bs, [], ?_, ⟨?_, ?_⟩, ?_, ?_⟩
    · simp only [applyW, writeStr, e1, Option.bind_eq_bind, Option.bind_some, e3.1]
      rw [e3.2]; rfl
    · show s2.used + bs.length ≤ s2.bufSize; omega
    · show s2.bufSize ≤ s2.mem.length; omega
    · show 0 < s2.bufSize; omega
    · rw [c2, c1, List.take_length]; rfl
  | produce bs got =>
    obtain ⟨s1, len, e1, hl, hsum, u1, b1, w1, c1⟩ := getWriteBuffer_spec junk h hz
    have hb := ha.2 s1 len e1
    have hg := ha.1
    have := w1.size
    obtain ⟨s2, e2, b2, u2, l2, c2⟩ := fill_spec (s := s1) bs got (by omega) ha.1
    refine ⟨writeSuccess s2 got, bs.take got, [], by simp [applyW, e1, e2], ⟨?_, ?_⟩, ?_, ?_⟩
    · show s2.used + got ≤ s2.bufSize; omega
    · show s2.bufSize ≤ s2.mem.length; omega
    · show 0 < s2.bufSize; omega
    · rw [c2, c1]; rfl
  | save k =>
    have hk : k ≤ s.used := ha
    simp only [applyW, savePoint]
    rw [if_neg (by omega)]
    by_cases h0 : k = 0
    · rw [if_pos h0]
      subst h0
      by_cases hf : s.used = s.bufSize
      · rw [if_pos hf]
        obtain ⟨s', e, h1, h2, h3, h4⟩ := regrow_spec junk h (n := s.bufSize * 2) (by omega)
        exact ⟨s', [], [], by simp [e], ⟨by omega, by omega⟩, by omega, by simp [h4]⟩
      · rw [if_neg hf]
        exact ⟨s, [], [], by simp, h, hz, by simp⟩
    · rw [if_neg h0, if_pos hk, if_pos (by omega)]
      refine ⟨_, [], (content s).take k, rfl, ⟨?_, ?_⟩, hz, ?_⟩
      · show s.used - k ≤ s.bufSize; omega
      · show s.bufSize ≤ (_ ++ _ : List Byte).length
        simp; omega
      · have hl : ((s.mem.drop k).take (s.used - k)).length = s.used - k := by simp; omega
        have : content { s with mem := (s.mem.drop k).take (s.used - k) ++ s.mem.drop (s.used - k), used := s.used - k } =
            (content s).drop k := by
          show List.take (s.used - k) (_ ++ _) = _
          rw [List.take_append_of_le_length (by omega), List.take_take, Nat.min_self, content, List.drop_take]
        rw [this, List.take_append_drop, List.append_nil]

/-- a history of writes; collects written and consumed bytes -/
def runW (junk : Nat → Byte) : State → List WOp → Option (State × List Byte × List Byte)
  | s, [] => some (s, [], [])
  | s, o :: os => do
    let (s, w, c) ← applyW junk s o
    let (s, w', c') ← runW junk s os
    return (s, w ++ w', c ++ c')

def AllAllowedW (junk : Nat → Byte) : State → List WOp → Prop
  | _, [] => True
  | s, o :: os => AllowedW junk s o ∧ ∀ s' w c, applyW junk s o = some (s', w, c) → AllAllowedW junk s' os

theorem runW_spec (junk) : ∀ (ops : List WOp) (s : State), WF s → 0 < s.bufSize → AllAllowedW junk s ops →
    ∃ s' w c, runW junk s ops = some (s', w, c) ∧ WF s' ∧ c ++ content s' = content s ++ w
  | [], s, h, _, _ => ⟨s, [], [], rfl, h, by simp⟩
  | o :: os, s, h, hz, ha => by
    obtain ⟨s1, w1, c1, e1, wf1, z1, st1⟩ := applyW_spec junk h hz o ha.1
    obtain ⟨s2, w2, c2, e2, wf2, st2⟩ := runW_spec junk os s1 wf1 z1 (ha.2 s1 w1 c1 e1)
    refine ⟨s2, w1 ++ w2, c1 ++ c2, by simp [runW, e1, e2], wf2, ?_⟩
    rw [List.append_assoc, st2, ← List.append_assoc, st1, List.append_assoc]

/-- a sequence of `ks_get_read_buffers` / `ks_read_success(got)`: collects the bytes taken -/
def runR : State → List Nat → Option (State × List Byte)
  | s, [] => some (s, [])
  | s, n :: ns => do
    let (s', _) ← readSuccess s n
    let (s'', out) ← runR s' ns
    return (s'', (readable s).take n ++ out)

/-- the bytes still to be read -/
theorem runR_spec : ∀ (ns : List Nat) (s : State), WF s → s.used + ns.sum ≤ s.bufSize →
    ∃ s' out, runR s ns = some (s', out) ∧ WF s' ∧ s'.bufSize = s.bufSize ∧ out ++ readable s' = readable s ∧ out.length = ns.sum
  | [], s, h, _ => ⟨s, [], rfl, h, rfl, rfl, rfl⟩
  | n :: ns, s, h, hn => by
    rw [List.sum_cons] at hn
    have hs := h.size
    have e1 : readSuccess s n = some ({ s with used := s.used + n }, decide (s.bufSize > s.used + n)) := by
      simp only [readSuccess]; rw [if_pos (by omega)]
    obtain ⟨s2, out, e2, wf2, b2, st2, l2⟩ := runR_spec ns { s with used := s.used + n }
      ⟨by show s.used + n ≤ s.bufSize; omega, hs⟩ (by show s.used + n + _ ≤ s.bufSize; omega)
    refine ⟨s2, (readable s).take n ++ out, by simp [runR, e1, e2], wf2, b2, ?_, ?_⟩
    · rw [List.append_assoc, st2]
      have : readable { s with used := s.used + n } = (readable s).drop n := by
        simp only [readable, List.drop_take, List.drop_drop]
        congr 1
        omega
      rw [this, List.take_append_drop]
    · rw [List.length_append, l2, List.sum_cons, List.length_take, readable, List.length_take, List.length_drop]
      omega

/-- **C10.** For every history of `ks_write_str`, direct production and save points on a buffer created with a positive size,
nothing undefined happens, the bytes dropped by save points followed by the content are exactly the bytes written, in order,
and `used` never exceeds the allocated size. -/
theorem ks_buffer_lossless (junk : Nat → Byte) (n : Nat) (hn : 0 < n) (ops : List WOp)
    (ha : AllAllowedW junk (init junk n) ops) :
    ∃ s w c, runW junk (init junk n) ops = some (s, w, c) ∧ c ++ content s = w ∧ s.used ≤ s.mem.length ∧
      (content s).length = s.used := by
  have hw : WF (init junk n) := ⟨Nat.zero_le _, by simp [init, fresh]⟩
  obtain ⟨s, w, c, e, wf, st⟩ := runW_spec junk ops _ hw hn ha
  have h1 := wf.used
  have h2 := wf.size
  refine ⟨s, w, c, e, by rw [st]; simp [init, content], by omega, by simp [content]; omega⟩

/-- **C10.** Switching a written buffer to reading and taking any sequence of parts delivers the content in order. -/
theorem ks_buffer_read_back (s : State) (h : WF s) (ns : List Nat) (hns : ns.sum ≤ s.used) :
    ∃ s' out, runR (switchRead s) ns = some (s', out) ∧ out ++ readable s' = content s ∧ out.length = ns.sum := by
  have h1 := h.used
  have h2 := h.size
  have hw : WF (switchRead s) := ⟨Nat.zero_le _, by show s.used ≤ s.mem.length; omega⟩
  obtain ⟨s', out, e, _, _, st, l⟩ := runR_spec ns (switchRead s) hw (by show 0 + _ ≤ s.used; omega)
  exact ⟨s', out, e, by rw [st]; simp [readable, switchRead, content], l⟩

/-- **C10.** `ks_read_success` returns true exactly when bytes are left. -/
theorem ks_read_success_flag (s : State) (h : WF s) (got : Nat) (hg : s.used + got ≤ s.bufSize) :
    ∃ s' flag, readSuccess s got = some (s', flag) ∧ readable s' = (readable s).drop got ∧ (flag = true ↔ readable s' ≠ []) := by
  have h2 := h.size
  refine ⟨{ s with used := s.used + got }, decide (s.bufSize > s.used + got), by simp only [readSuccess]; rw [if_pos hg], ?_, ?_⟩
  · simp only [readable, List.drop_take, List.drop_drop]
    congr 1
    omega
  · rw [decide_eq_true_iff, readable, Ne, ← List.length_eq_zero_iff, List.length_take, List.length_drop]
    show _ ↔ ¬ min (s.bufSize - (s.used + got)) (s.mem.length - (s.used + got)) = 0
    omega

/-- **C10.** `ks_get_write_buffer` always hands out room for at least one byte and keeps the content. -/
theorem ks_get_write_buffer_room (junk : Nat → Byte) (s : State) (h : WF s) (hz : 0 < s.bufSize) :
    ∃ s' len, getWriteBuffer junk s = some (s', len) ∧ 0 < len ∧ s'.used + len ≤ s'.mem.length ∧ content s' = content s := by
  obtain ⟨s1, len, e1, hl, hsum, u1, b1, w1, c1⟩ := getWriteBuffer_spec junk h hz
  have := w1.size
  exact ⟨s1, len, e1, hl, by omega, c1⟩

/-- **Finding (C10).** A buffer switched to reading that holds no bytes has size 0; writing it again through
`ks_get_write_buffer` fails its assertion (without assertions the retry loop does not end: the doubled size stays 0). -/
theorem ks_switch_empty_then_write (junk : Nat → Byte) (n : Nat) :
    getWriteBuffer junk (switchRead (init junk n)) = none ∧ alignUp (0 * 2) 1024 = 0 := by
  constructor
  · rfl
  · decide

theorem AllAllowedW.cons {junk s o os s1 w r} (h : AllowedW junk s o) (e : applyW junk s o = some (s1, w, r))
    (t : AllAllowedW junk s1 os) : AllAllowedW junk s (o :: os) :=
  ⟨h, fun s' w' r' e' => by rw [e] at e'; cases e'; exact t⟩

def demo : List WOp := [.write [1, 2], .save 0, .write [3], .save 2, .write [4, 5], .save 1]

/-- the hypotheses are met -/
example : AllAllowedW (fun _ => 0) (init (fun _ => 0) 2) demo :=
  .cons trivial rfl (.cons (Nat.zero_le _) rfl (.cons trivial rfl (.cons (Nat.le_of_ble_eq_true rfl) rfl
    (.cons trivial rfl (.cons (Nat.le_of_ble_eq_true rfl) rfl trivial)))))

example : ∃ s, runW (fun _ => 0) (init (fun _ => 0) 2) demo = some (s, [1, 2, 3, 4, 5], [1, 2, 3]) ∧ content s = [4, 5] := by
  refine ⟨_, rfl, ?_⟩; decide

/-! ## C11 -/

/-- **C11.** `kbuf_seek(n)` over a chain with at least `n` bytes leaves exactly the bytes after the first `n`, and the
chunks behind the hit chunk are shared, not copied. -/
theorem kbuf_seek_drops (cs : List (List Byte)) (n : Nat) (h : n ≤ cs.flatten.length) :
    ∃ r, kbufSeek cs n = some r ∧ r.flatten = cs.flatten.drop n ∧ r.tail <:+ cs := by
  induction cs generalizing n with
  | nil =>
    simp at h; subst h
    exact ⟨[], rfl, rfl, List.suffix_refl _⟩
  | cons c cs ih =>
    cases n with
    | zero => exact ⟨c :: cs, rfl, rfl, List.suffix_cons _ _⟩
    | succ n =>
      rw [kbufSeek]
      by_cases hc : c.length > n + 1
      · rw [if_pos hc]
        refine ⟨_, rfl, ?_, List.suffix_cons _ _⟩
        rw [List.flatten_cons, List.flatten_cons, List.drop_append_of_le_length (by omega)]
      · rw [if_neg hc]
        rw [List.flatten_cons, List.length_append] at h
        obtain ⟨r, e, hr, hs⟩ := ih (n + 1 - c.length) (by omega)
        refine ⟨r, e, ?_, hs.trans (List.suffix_cons _ _)⟩
        rw [hr, List.flatten_cons, List.drop_append, List.drop_of_length_le (l := c) (by omega), List.nil_append]

/-- **C11.** Seeking past the end of the chain dereferences NULL; this is the only failure. -/
theorem kbuf_seek_past_end (cs : List (List Byte)) (n : Nat) (h : cs.flatten.length < n) : kbufSeek cs n = none := by
  induction cs generalizing n with
  | nil => cases n with
    | zero => simp at h
    | succ n => rfl
  | cons c cs ih =>
    rw [List.flatten_cons, List.length_append] at h
    cases n with
    | zero => omega
    | succ n =>
      rw [kbufSeek, if_neg (by omega)]
      exact ih _ (by omega)

/-- the addresses a vector designates -/
def IoVec.addrs (v : IoVec) : List Nat := (List.range v.len).map (v.base + ·)

def addrs (vs : List IoVec) : List Nat := (vs.map IoVec.addrs).flatten

theorem toInt32_id {n : Int} (h : -2 ^ 31 ≤ n) (h' : n < 2 ^ 31) : toInt32 n = n := by
  unfold toInt32
  omega

theorem addrs_seek (v : IoVec) (n : Nat) (h : n ≤ v.len) : (IoVec.mk (v.base + n) (v.len - n)).addrs = v.addrs.drop n := by
  unfold IoVec.addrs
  apply List.ext_getElem
  · simp
  · intro i h1 h2
    simp; omega

/-- **C11.** `kgl_iovec_seek(n)` over vectors that hold at least `n` bytes, each shorter than 2^31, designates exactly the
addresses after the first `n`, and `*bc` stays the number of remaining vectors. -/
theorem iovec_seek_drops (vs : List IoVec) (n : Nat) (h : n ≤ (addrs vs).length) (hn : n < 2 ^ 31)
    (hl : ∀ v ∈ vs, v.len < 2 ^ 31) :
    ∃ r, iovecSeek vs vs.length n = some (r, r.length) ∧ addrs r = (addrs vs).drop n := by
  induction vs generalizing n with
  | nil =>
    simp [addrs] at h; subst h
    exact ⟨[], rfl, rfl⟩
  | cons v vs ih =>
    rw [iovecSeek]
    have hv := hl v (by simp)
    have hal : v.addrs.length = v.len := by simp [IoVec.addrs]
    by_cases h0 : (n : Int) > 0
    · rw [if_pos h0, toInt32_id (by omega) (by omega)]
      by_cases hc : (v.len : Int) > n
      · rw [if_pos hc]
        refine ⟨_, rfl, ?_⟩
        simp only [Int.toNat_natCast, addrs, List.map_cons, List.flatten_cons]
        rw [addrs_seek v n (by omega), List.drop_append_of_le_length (by omega)]
      · rw [if_neg hc]
        have e : toInt32 ((n : Int) - v.len) = ((n - v.len : Nat) : Int) := by
          rw [toInt32_id (by omega) (by omega)]; omega
        have hlen : (addrs (v :: vs)).length = v.len + (addrs vs).length := by simp [addrs, hal]
        obtain ⟨r, er, hr⟩ := ih (n - v.len) (by omega) (by omega) (fun w hw => hl w (by simp [hw]))
        refine ⟨r, ?_, ?_⟩
        · rw [e, ← er]; congr 1; simp
        · rw [hr]
          simp only [addrs, List.map_cons, List.flatten_cons]
          rw [List.drop_append, List.drop_of_length_le (l := v.addrs) (by omega), List.nil_append, hal]
    · rw [if_neg h0]
      have : n = 0 := by omega
      subst this
      exact ⟨v :: vs, rfl, rfl⟩

/-- **C11.** Seeking past the end reads vectors behind the array. -/
theorem iovec_seek_past_end (vs : List IoVec) (bc : Int) (n : Nat) (h : (addrs vs).length < n) (hn : n < 2 ^ 31)
    (hl : ∀ v ∈ vs, v.len < 2 ^ 31) : iovecSeek vs bc n = none := by
  induction vs generalizing n bc with
  | nil => rw [iovecSeek, if_pos (by simp [addrs] at h; omega)]
  | cons v vs ih =>
    have hv := hl v (by simp)
    have hal : v.addrs.length = v.len := by simp [IoVec.addrs]
    have hlen : (addrs (v :: vs)).length = v.len + (addrs vs).length := by simp [addrs, hal]
    rw [iovecSeek, if_pos (by omega), toInt32_id (by omega) (by omega), if_neg (by omega)]
    have e : toInt32 ((n : Int) - v.len) = ((n - v.len : Nat) : Int) := by
      rw [toInt32_id (by omega) (by omega)]; omega
    rw [e]
    exact ih _ _ (by omega) (by omega) (fun w hw => hl w (by simp [hw]))

/-- **Finding (C11).** A vector of 2^31 bytes is skipped as a whole by a seek of 1 byte: `(int)iov_len` is negative. -/
theorem iovec_seek_large_vector : iovecSeek [⟨0, 2 ^ 31⟩, ⟨7, 5⟩] 2 1 = some ([⟨7, 5⟩], 1) := by decide

example : iovecSeek [⟨10, 3⟩, ⟨20, 0⟩, ⟨30, 4⟩] 3 5 = some ([⟨32, 2⟩], 1) := by decide
example : kbufSeek [[1, 2, 3], [], [4, 5, 6]] 4 = some [[5, 6]] := by decide

end Kasync.SBuf
