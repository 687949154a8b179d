import Verif.KBuf.Lemmas

/-! # Property theorems for krw_buffer: C07, C08, C09 -/

namespace Kasync.KBuf

/-- Runs a history; collects all bytes written and all bytes read. `none` is undefined behaviour. -/
def runOps (junk : Nat → Byte) : State → List Op → Option (State × List Byte × List Byte)
  | s, [] => some (s, [], [])
  | s, o :: os => do
    let (s, w, r) ← apply junk s o
    let (s', w', r') ← runOps junk s os
    return (s', w ++ w', r ++ r')

/-- the caller follows the interface at every step of the history -/
def AllAllowed (junk : Nat → Byte) : State → List Op → Prop
  | _, [] => True
  | s, o :: os => Allowed junk s o ∧ ∀ s' w r, apply junk s o = some (s', w, r) → AllAllowed junk s' os

theorem apply_spec (junk : Nat → Byte) {s : State} (h : WF s) (hz : 0 < s.chunkSize) (o : Op) (ha : Allowed junk s o) :
    ∃ s' w r, apply junk s o = some (s', w, r) ∧ WF s' ∧ s'.chunkSize = s.chunkSize ∧ r ++ stream s' = stream s ++ w := by
  cases o with
  | write bs =>
    obtain ⟨s', e, w, st, cz⟩ := writeStrLoop_spec junk bs.length s bs h hz (Nat.le_refl _)
    exact ⟨s', bs, [], by simp [apply, writeStr, e], w, cz, by simpa using st⟩
  | produce bs got =>
    obtain ⟨s1, len, ds, last, o, e1, w1, st1, cz1, hc1, ho1, hou, hcap, hlen, hsum, _⟩ := getWriteBuffer_spec junk h hz
    have hb := ha.2 s1 len e1
    obtain ⟨s2, s3, e2, e3, w3, st3, cz3⟩ := produce_spec w1 hc1 ho1 bs got (by omega) ha.1
    refine ⟨s3, bs.take got, [], by simp [apply, e1, e2, e3], w3, by omega, ?_⟩
    rw [List.nil_append, st3, st1]
  | reserve =>
    obtain ⟨s1, len, ds, last, o, e1, w1, st1, cz1, _⟩ := getWriteBuffer_spec junk h hz
    exact ⟨s1, [], [], by simp [apply, e1], w1, cz1, by simpa using st1⟩
  | append c =>
    obtain ⟨w, st⟩ := append_wf h (c := c) ha
    exact ⟨_, _, _, rfl, w, rfl, by simpa using st⟩
  | read len =>
    obtain ⟨s', out, e, w, st, _, cz, _⟩ := readBytes_spec len s len h (Nat.le_refl _)
    exact ⟨s', [], out, by simp [apply, read, e], w, cz, by simpa using st⟩
  | consume got =>
    obtain ⟨s', flag, e, w, st, cz, _⟩ := readSuccess_spec h ha got
    refine ⟨s', [], (getReadBuffers s s.chunks.length).flatten.take got, by simp [apply, e], w, cz, ?_⟩
    rw [getReadBuffers_all s h, st, List.take_append_drop, List.append_nil]

theorem runOps_spec (junk : Nat → Byte) : ∀ (ops : List Op) (s : State), WF s → 0 < s.chunkSize →
    AllAllowed junk s ops → ∃ s' w r, runOps junk s ops = some (s', w, r) ∧ WF s' ∧ r ++ stream s' = stream s ++ w
  | [], s, h, _, _ => ⟨s, [], [], rfl, h, by simp⟩
  | o :: os, s, h, hz, ha => by
    obtain ⟨s1, w1, r1, e1, wf1, cz1, st1⟩ := apply_spec junk h hz o ha.1
    obtain ⟨s2, w2, r2, e2, wf2, st2⟩ := runOps_spec junk os s1 wf1 (by omega) (ha.2 s1 w1 r1 e1)
    refine ⟨s2, w1 ++ w2, r1 ++ r2, by simp [runOps, e1, e2], wf2, ?_⟩
    rw [List.append_assoc, st2, ← List.append_assoc, st1, List.append_assoc]

theorem init_wf (n : Nat) : WF (init n) := by
  refine ⟨?_, ?_, ?_, ?_, ?_⟩ <;> simp [init, stream]

/-- **C07.** Lossless FIFO: for every history of writes, direct productions, reservations, appended chunks and reads on a
fresh buffer of positive chunk size (and whatever the fresh memory contains) nothing undefined happens, the bytes read
followed by the bytes still readable are exactly the bytes written, in order, and `total_len` is the number of readable
bytes. -/
theorem krw_fifo (junk : Nat → Byte) (chunkSize : Nat) (hz : 0 < chunkSize) (ops : List Op)
    (ha : AllAllowed junk (init chunkSize) ops) :
    ∃ s written readOut, runOps junk (init chunkSize) ops = some (s, written, readOut) ∧
      readOut ++ stream s = written ∧ s.totalLen = (stream s).length := by
  obtain ⟨s, w, r, e, wf, st⟩ := runOps_spec junk ops (init chunkSize) (init_wf chunkSize) hz ha
  exact ⟨s, w, r, e, by rw [st]; simp [init, stream], wf.total⟩

/-- **C07.** `krw_read(len)` delivers a prefix of the readable bytes, at most `len`, and exactly
`min len total_len` of them when no chunk is empty; what is left is still readable in order. -/
theorem krw_read_spec (s : State) (h : WF s) (len : Nat) :
    ∃ s' out, read s len = some (s', out) ∧ out ++ stream s' = stream s ∧ out.length ≤ len ∧ WF s' ∧
      ((∀ c ∈ s.chunks, 0 < c.used) → (∀ c cs, s.chunks = c :: cs → s.readOff < c.used) →
        (out.length : Int) = min (len : Int) s.totalLen) := by
  obtain ⟨s', out, e, w, st, hl, cz, hfull⟩ := readBytes_spec len s len h (Nat.le_refl _)
  refine ⟨s', out, e, st, hl, w, fun h1 h2 => ?_⟩
  rw [h.total, hfull h1 h2]; omega

/-- **C07.** `krw_read_success(got)` consumes exactly the next `got` readable bytes (all of them when there are fewer)
and returns false exactly when no chunk is left. -/
theorem krw_read_success_spec (s : State) (h : WF s) (hne : s.chunks ≠ []) (got : Nat) :
    ∃ s' flag, readSuccess s got = some (s', flag) ∧ stream s' = (stream s).drop got ∧ WF s' ∧
      (flag = false → stream s' = []) := by
  obtain ⟨s', flag, e, w, st, cz, hfl, _⟩ := readSuccess_spec h hne got
  refine ⟨s', flag, e, st, w, ?_⟩
  rintro rfl
  have : s'.chunks = [] := by
    refine Classical.byContradiction fun hc => ?_
    have := hfl.2 hc; cases this
  rw [stream_eq, this]; simp

/-- **C07.** `krw_get_write_buffer` hands out room for at least one byte without changing what is readable. -/
theorem krw_get_write_buffer_spec (junk : Nat → Byte) (s : State) (h : WF s) (hz : 0 < s.chunkSize) :
    ∃ s' len, getWriteBuffer junk s = some (s', len) ∧ 0 < len ∧ len ≤ s.chunkSize ∧ stream s' = stream s ∧ WF s' ∧
      ∀ bs, bs.length ≤ len → ∃ s1, fill s' bs = some s1 := by
  obtain ⟨s1, len, ds, last, o, e1, w1, st1, cz1, hc1, ho1, hou, hcap, hlen, hsum, _⟩ := getWriteBuffer_spec junk h hz
  refine ⟨s1, len, e1, hlen, by omega, st1, w1, fun bs hb => ?_⟩
  obtain ⟨s2, _, e2, _⟩ := produce_spec w1 hc1 ho1 bs 0 (by omega) (Nat.zero_le _)
  exact ⟨s2, e2⟩

/-- **C08.** `krw_get_read_buffers(n)` returns at most `n` ranges which in order are a prefix of the readable bytes, and
all of them when there are at most `n` chunks; the first range starts at the read position. -/
theorem krw_get_read_buffers_prefix (s : State) (h : WF s) (n : Nat) (hn : 1 ≤ n) :
    (getReadBuffers s n).length ≤ n ∧ (getReadBuffers s n).flatten <+: stream s ∧
    (s.chunks.length ≤ n → (getReadBuffers s n).flatten = stream s) ∧
    ((getReadBuffers s n).length = min n s.chunks.length) := by
  unfold getReadBuffers
  cases hc : s.chunks with
  | nil => simp [stream_eq, hc]
  | cons c cs =>
    have hbl := bytes_length (h.fits c (by simp [hc]))
    have ho := h.off c cs hc
    have hst : stream s = c.bytes.drop s.readOff ++ flat cs := by
      rw [stream_eq, hc, flat_cons, List.drop_append_of_le_length (by omega)]
    refine ⟨?_, ?_, ?_, ?_⟩
    · simp; omega
    · rw [hst, List.flatten_cons]
      refine (List.prefix_append_right_inj _).2 ?_
      have : cs = cs.take (n - 1) ++ cs.drop (n - 1) := (List.take_append_drop _ _).symm
      conv => rhs; rw [this, flat_append]
      exact List.prefix_append _ _
    · intro hl
      have h2 : cs.take (n - 1) = cs := List.take_of_length_le (by simp at hl; omega)
      rw [hst, List.flatten_cons, h2]
      rfl
    · simp; omega

/-- **C09.** Prepending to a buffer whose front chunk is untouched puts the new bytes first. -/
theorem krw_insert_first (s : State) (h : WF s) (c : Chunk) (hc : c.used ≤ c.mem.length) (h0 : s.readOff = 0) :
    WF (insert s c) ∧ stream (insert s c) = c.bytes ++ stream s := by
  unfold insert
  by_cases hne : s.chunks = []
  · rw [if_pos hne]
    obtain ⟨w, st⟩ := append_wf h hc
    refine ⟨w, ?_⟩
    have : stream s = [] := by rw [stream_eq, hne]; simp
    rw [st, this]; simp
  · rw [if_neg hne]
    have hst : stream { s with chunks := c :: s.chunks, readOff := 0, totalLen := s.totalLen + c.used } = c.bytes ++ stream s := by
      simp only [stream_eq, flat_cons, h0, List.drop_zero]
    refine ⟨⟨?_, ?_, ?_, ?_, ?_⟩, hst⟩
    · intro d hd
      rcases List.mem_cons.1 hd with rfl | hd
      · exact hc
      · exact h.fits d hd
    · intro d ds _; exact Nat.zero_le _
    · intro e; cases e
    · intro o ho d hd
      have hd' : (c :: s.chunks).getLast? = some d := hd
      rw [List.getLast?_cons_of_ne_nil hne] at hd'
      exact h.last o ho d hd'
    · rw [hst, List.length_append, bytes_length hc, Int.natCast_add, ← h.total]
      exact Int.add_comm _ _

/-- **C09, what happens otherwise.** Prepending after a part of the front chunk was read delivers the already consumed
bytes of that chunk again. -/
theorem krw_insert_redelivers (s : State) (c : Chunk) (hne : s.chunks ≠ []) :
    stream (insert s c) = c.bytes ++ ((flat s.chunks).take s.readOff ++ stream s) := by
  simp only [insert, if_neg hne, stream_eq, flat_cons, List.drop_zero, List.take_append_drop]

/-- **Finding (C09).** A concrete history: after reading 2 of 4 bytes, prepending one byte makes the two read bytes
readable again, and `total_len` no longer counts the readable bytes. -/
theorem krw_insert_after_partial_read :
    ∃ s, ((writeStr (fun _ => 0) (init 8) [1, 2, 3, 4]).bind (fun s => read s 2)).map (fun p => insert p.1 ⟨[9], 1⟩) = some s ∧
      stream s = [9, 1, 2, 3, 4] ∧ s.totalLen = 3 := by
  refine ⟨_, rfl, ?_, ?_⟩ <;> decide

/-- **Finding (C07).** `krw_read_success` is documented to return true when there is still data to read, but returns true
with nothing left to read if a buffer was reserved and not written. -/
theorem krw_read_success_true_but_empty :
    ∃ s, ((writeStr (fun _ => 0) (init 2) [1, 2]).bind (fun s => getWriteBuffer (fun _ => 0) s)).bind (fun p => readSuccess p.1 2) =
        some (s, true) ∧ stream s = [] ∧ s.totalLen = 0 := by
  refine ⟨_, rfl, ?_, ?_⟩ <;> decide

/-- **Finding (C07).** An appended empty chunk makes `krw_read` return 0 although bytes are readable. -/
theorem krw_read_stops_at_empty_chunk :
    ∃ s, writeStr (fun _ => 0) (append (init 4) ⟨[], 0⟩) [1, 2, 3] = some s ∧ s.totalLen = 3 ∧ stream s = [1, 2, 3] ∧
      read s 3 = some (s, []) := by
  refine ⟨_, rfl, ?_, ?_, ?_⟩ <;> decide

/-- **Finding (C07).** Reading everything between `krw_get_write_buffer` and `krw_write_success` frees the chunk under the
writer: `krw_write_success` then fails its assertion. -/
theorem krw_read_between_get_and_success :
    ((((writeStr (fun _ => 0) (init 4) [1]).bind (fun s => getWriteBuffer (fun _ => 0) s)).bind
      (fun p => readSuccess p.1 1)).bind (fun p => writeSuccess p.1 2)) = none := by decide

theorem AllAllowed.cons {junk s o os s1 w r} (h : Allowed junk s o) (e : apply junk s o = some (s1, w, r))
    (t : AllAllowed junk s1 os) : AllAllowed junk s (o :: os) :=
  ⟨h, fun s' w' r' e' => by rw [e] at e'; cases e'; exact t⟩

def demo : List Op := [.write [1, 2, 3, 4, 5], .produce [6] 1, .append ⟨[8, 9], 2⟩, .read 4, .reserve, .consume 2, .write [10]]

/-- state after the first write of `demo` -/
def demo1 : State := ⟨3, [⟨[1, 2, 3], 3⟩, ⟨[4, 5, 102], 2⟩], 0, some 2, 5⟩

/-- The hypotheses of `krw_fifo` are met by a mixed history that crosses chunk borders. -/
example : AllAllowed (fun n => 100 + n) (init 3) demo := by
  have e1 : apply (fun n => 100 + n) (init 3) (.write [1, 2, 3, 4, 5]) = some (demo1, [1, 2, 3, 4, 5], []) := by decide
  have e2 : getWriteBuffer (fun n => 100 + n) demo1 = some (demo1, 1) := by decide
  refine .cons trivial e1 (.cons (s1 := ⟨3, [⟨[1, 2, 3], 3⟩, ⟨[4, 5, 6], 3⟩], 0, some 3, 6⟩) (w := [6]) (r := []) ⟨by decide, ?_⟩
    (by decide) (.cons (s1 := ⟨3, [⟨[1, 2, 3], 3⟩, ⟨[4, 5, 6], 3⟩, ⟨[8, 9], 2⟩], 0, none, 8⟩) (w := [8, 9]) (r := [])
      (by show 2 ≤ 2; decide) (by decide) (.cons (s1 := ⟨3, [⟨[4, 5, 6], 3⟩, ⟨[8, 9], 2⟩], 1, none, 4⟩) (w := []) (r := [1, 2, 3, 4])
        trivial (by decide) (.cons (s1 := ⟨3, [⟨[4, 5, 6], 3⟩, ⟨[8, 9], 2⟩, ⟨[100, 101, 102], 0⟩], 1, some 0, 4⟩) (w := []) (r := [])
          trivial (by decide) (.cons (s1 := ⟨3, [⟨[8, 9], 2⟩, ⟨[100, 101, 102], 0⟩], 0, some 0, 2⟩) (w := []) (r := [5, 6])
            (by intro h; cases h) (by decide) ⟨trivial, fun _ _ _ _ => trivial⟩)))))
  intro s' len h
  rw [e2] at h
  cases h
  decide

end Kasync.KBuf
