import Verif.KBuf.Spec

/-! # Helper lemmas for krw_buffer -/

namespace Kasync.KBuf

/-- concatenated valid bytes -/
def flat (cs : List Chunk) : List Byte := (cs.map Chunk.bytes).flatten

@[simp] theorem flat_nil : flat [] = [] := rfl
@[simp] theorem flat_cons (c : Chunk) (cs : List Chunk) : flat (c :: cs) = c.bytes ++ flat cs := rfl
@[simp] theorem flat_append (a b : List Chunk) : flat (a ++ b) = flat a ++ flat b := by simp [flat]

theorem stream_eq (s : State) : stream s = (flat s.chunks).drop s.readOff := rfl

theorem bytes_length {c : Chunk} (h : c.used ≤ c.mem.length) : c.bytes.length = c.used := by
  simp [Chunk.bytes]; omega

theorem modifyLast_concat (f : Chunk → Chunk) (cs : List Chunk) (c : Chunk) :
    modifyLast f (cs ++ [c]) = cs ++ [f c] := by
  induction cs with
  | nil => rfl
  | cons d cs ih =>
    cases cs with
    | nil => rfl
    | cons e cs => simp only [List.cons_append, modifyLast] at ih ⊢; rw [ih]

theorem getLast?_concat' {cs : List Chunk} {c : Chunk} (h : cs.getLast? = some c) : ∃ ds, cs = ds ++ [c] := by
  rw [List.getLast?_eq_some_iff] at h
  obtain ⟨ds, h⟩ := h; exact ⟨ds, h⟩

theorem newbuff_length (junk : Nat → Byte) (n : Nat) : (newbuff junk n).mem.length = n := by simp [newbuff]
theorem newbuff_bytes (junk : Nat → Byte) (n : Nat) : (newbuff junk n).bytes = [] := by simp [newbuff, Chunk.bytes]

/-- appending a chunk at the end appends its bytes to the stream -/
theorem drop_flat_append {cs : List Chunk} {o : Nat} (hf : ∀ c ∈ cs, c.used ≤ c.mem.length)
    (ho : ∀ c ds, cs = c :: ds → o ≤ c.used) (hne : cs ≠ []) (bs : List Byte) :
    (flat cs ++ bs).drop o = (flat cs).drop o ++ bs := by
  cases cs with
  | nil => exact absurd rfl hne
  | cons c ds =>
    rw [List.drop_append_of_le_length]
    have := ho c ds rfl
    have := bytes_length (hf c (by simp))
    simp only [flat_cons, List.length_append]; omega

theorem append_wf {s : State} (h : WF s) {c : Chunk} (hc : c.used ≤ c.mem.length) :
    WF (append s c) ∧ stream (append s c) = stream s ++ c.bytes := by
  have hst : stream (append s c) = stream s ++ c.bytes := by
    simp only [stream_eq, append, flat_append, flat_cons, flat_nil, List.append_nil]
    by_cases hne : s.chunks = []
    · simp [hne, h.empty hne]
    · rw [if_neg hne]
      exact drop_flat_append h.fits h.off hne _
  refine ⟨⟨?_, ?_, ?_, ?_, ?_⟩, hst⟩
  · intro d hd
    simp only [append, List.mem_append, List.mem_singleton] at hd
    rcases hd with hd | rfl
    · exact h.fits d hd
    · exact hc
  · intro d ds e
    simp only [append] at e ⊢
    split
    · omega
    · rename_i hne
      cases hh : s.chunks with
      | nil => exact absurd hh hne
      | cons x xs =>
        rw [hh] at e
        simp only [List.cons_append, List.cons.injEq] at e
        rw [← e.1]; exact h.off x xs hh
  · intro e; simp [append] at e
  · intro o e; simp [append] at e
  · rw [hst, List.length_append, bytes_length hc]
    simp only [append, h.total]; omega

/-- what `krw_get_write_buffer` guarantees -/
theorem getWriteBuffer_spec (junk : Nat → Byte) {s : State} (h : WF s) (hz : 0 < s.chunkSize) :
    ∃ s' len ds last o, getWriteBuffer junk s = some (s', len) ∧ WF s' ∧ stream s' = stream s ∧
      s'.chunkSize = s.chunkSize ∧ s'.chunks = ds ++ [last] ∧ s'.writeOff = some o ∧ o = last.used ∧
      last.mem.length = s.chunkSize ∧ 0 < len ∧ o + len = s.chunkSize ∧ (s.chunks = [] → s'.readOff = 0) := by
  by_cases hne : s.chunks = []
  · obtain ⟨h1, h2⟩ := h.empty hne
    have htot : s.totalLen = 0 := by rw [h.total, stream_eq, hne]; simp
    have e : getWriteBuffer junk s =
        some ({ s with chunks := [newbuff junk s.chunkSize], readOff := 0, writeOff := some 0 }, s.chunkSize) := by
      have hlast : ([newbuff junk s.chunkSize] : List Chunk).getLast? = some (newbuff junk s.chunkSize) := rfl
      simp only [getWriteBuffer, hne, if_true, hlast]
      have hu : ((s.chunkSize : Int) - ((newbuff junk s.chunkSize).used : Nat)) = s.chunkSize := by simp [newbuff]
      rw [hu, if_neg, if_pos (by omega)]
      · simp
      · simp; omega
    refine ⟨_, _, [], newbuff junk s.chunkSize, 0, e, ⟨?_, ?_, ?_, ?_, ?_⟩, ?_, rfl, rfl, rfl, rfl,
      newbuff_length _ _, hz, by omega, fun _ => rfl⟩
    · simp [newbuff]
    · intro c cs _; exact Nat.zero_le _
    · intro hc; cases hc
    · intro o ho c hc
      dsimp only at ho hc
      cases ho; cases hc
      exact ⟨rfl, newbuff_length _ _⟩
    · simp [stream_eq, newbuff_bytes, htot]
    · simp [stream_eq, newbuff_bytes, hne]
  · cases hl : s.chunks.getLast? with
    | none => rw [List.getLast?_eq_none_iff] at hl; exact absurd hl hne
    | some last =>
      obtain ⟨ds, hds⟩ := getLast?_concat' hl
      by_cases hcase : ((s.chunkSize : Int) - last.used = 0 ∨ s.writeOff = none)
      · have e : getWriteBuffer junk s =
            some ({ s with chunks := s.chunks ++ [newbuff junk s.chunkSize], writeOff := some 0 }, s.chunkSize) := by
          simp only [getWriteBuffer, hne, if_false, hl, hcase, if_true]
          rw [if_neg (by omega)]
        have hst : (flat (s.chunks ++ [newbuff junk s.chunkSize])).drop s.readOff = stream s := by
          simp [newbuff_bytes, stream_eq]
        refine ⟨_, _, s.chunks, newbuff junk s.chunkSize, 0, e, ⟨?_, ?_, ?_, ?_, ?_⟩, hst, rfl, rfl, rfl, rfl,
          newbuff_length _ _, hz, by omega, fun hc => absurd hc hne⟩
        · intro c hc
          simp only [List.mem_append, List.mem_singleton] at hc
          rcases hc with hc | rfl
          · exact h.fits c hc
          · simp [newbuff]
        · intro c cs hc
          cases hh : s.chunks with
          | nil => exact absurd hh hne
          | cons x xs =>
            simp only [hh, List.cons_append, List.cons.injEq] at hc
            rw [← hc.1]; exact h.off x xs hh
        · intro hc; simp at hc
        · intro o ho c hc
          dsimp only at ho hc
          cases ho
          simp only [List.getLast?_concat, Option.some.injEq] at hc
          subst hc
          exact ⟨rfl, newbuff_length _ _⟩
        · show s.totalLen = _
          rw [stream_eq, hst]; exact h.total
      · have hw : ∃ o, s.writeOff = some o := by
          cases hw : s.writeOff with
          | none => exact absurd (.inr hw) hcase
          | some o => exact ⟨o, rfl⟩
        obtain ⟨o, ho⟩ := hw
        obtain ⟨ho1, ho2⟩ := h.last o ho last hl
        have hfit := h.fits last (by rw [hds]; simp)
        have hlt : last.used < s.chunkSize := by
          have : ¬ ((s.chunkSize : Int) - last.used = 0) := fun e => hcase (.inl e)
          omega
        have e : getWriteBuffer junk s = some (s, s.chunkSize - last.used) := by
          simp only [getWriteBuffer, hne, if_false, hl, hcase]
          rw [if_pos (by omega)]
          congr 2; omega
        exact ⟨s, _, ds, last, o, e, h, rfl, rfl, hds, ho, ho1, ho2, by omega, by omega, fun hc => absurd hc hne⟩

theorem overlay_take (mem : List Byte) (off got : Nat) (bs : List Byte) (h1 : off + bs.length ≤ mem.length)
    (h2 : got ≤ bs.length) : (overlay mem off bs).take (off + got) = mem.take off ++ bs.take got := by
  have hl : (mem.take off).length = off := by simp; omega
  unfold overlay
  rw [List.append_assoc]
  have := List.take_length_add_append (l₁ := mem.take off) (l₂ := bs ++ mem.drop (off + bs.length)) (i := got)
  rw [hl] at this
  rw [this, List.take_append_of_le_length h2]

theorem overlay_length (mem : List Byte) (off : Nat) (bs : List Byte) (h1 : off + bs.length ≤ mem.length) :
    (overlay mem off bs).length = mem.length := by
  simp [overlay]; omega

/-- storing bytes and announcing them appends them to the stream -/
theorem produce_spec {s : State} (h : WF s) {ds : List Chunk} {last : Chunk} {o : Nat} (hc : s.chunks = ds ++ [last])
    (ho : s.writeOff = some o) (bs : List Byte) (got : Nat) (hb : o + bs.length ≤ s.chunkSize) (hg : got ≤ bs.length) :
    ∃ s1 s2, fill s bs = some s1 ∧ writeSuccess s1 got = some s2 ∧ WF s2 ∧ stream s2 = stream s ++ bs.take got ∧
      s2.chunkSize = s.chunkSize := by
  have hl : s.chunks.getLast? = some last := by rw [hc]; simp
  obtain ⟨h1, h2⟩ := h.last o ho last hl
  have hb' : o + bs.length ≤ last.mem.length := by omega
  have hfill : fill s bs = some { s with chunks := ds ++ [{ last with mem := overlay last.mem o bs }] } := by
    simp only [fill, hl, ho]
    rw [if_pos hb', hc, modifyLast_concat]
  refine ⟨_, { s with chunks := ds ++ [⟨overlay last.mem o bs, last.used + got⟩], totalLen := s.totalLen + got, writeOff := some (o + got) }, hfill, ?_, ?_, ?_, rfl⟩
  · simp only [writeSuccess, ho]
    rw [if_neg (by simp), modifyLast_concat]; rfl
  all_goals
    have hbytes : (⟨overlay last.mem o bs, last.used + got⟩ : Chunk).bytes = last.bytes ++ bs.take got := by
      simp only [Chunk.bytes, ← h1]
      exact overlay_take _ _ _ _ hb' hg
    have hst : (flat (ds ++ [⟨overlay last.mem o bs, last.used + got⟩])).drop s.readOff = stream s ++ bs.take got := by
      have hfl : flat (ds ++ [⟨overlay last.mem o bs, last.used + got⟩]) = flat s.chunks ++ bs.take got := by
        rw [hc]; simp only [flat_append, flat_cons, flat_nil, hbytes, List.append_nil, List.append_assoc]
      rw [hfl, stream_eq]
      exact drop_flat_append h.fits h.off (by rw [hc]; simp) _
  · refine ⟨?_, ?_, ?_, ?_, ?_⟩
    · intro c hcm
      simp only [List.mem_append, List.mem_singleton] at hcm
      rcases hcm with hcm | rfl
      · exact h.fits c (by rw [hc]; simp [hcm])
      · show last.used + got ≤ _
        rw [overlay_length _ _ _ hb']; omega
    · intro c cs e
      cases ds with
      | nil =>
        simp only [List.nil_append, List.cons.injEq] at e
        rw [← e.1]
        have := h.off last [] (by rw [hc]; rfl)
        show s.readOff ≤ last.used + got
        omega
      | cons x xs =>
        simp only [List.cons_append, List.cons.injEq] at e
        rw [← e.1]; exact h.off x (xs ++ [last]) (by rw [hc]; rfl)
    · intro e; simp at e
    · intro o' ho' c hc'
      simp only [Option.some.injEq, List.getLast?_concat] at ho' hc'
      subst ho'; subst hc'
      exact ⟨by show o + got = last.used + got; omega, by rw [overlay_length _ _ _ hb']; exact h2⟩
    · show s.totalLen + (got : Int) = _
      rw [stream_eq, hst, List.length_append, h.total, List.length_take]; omega
  · exact hst

theorem writeStrLoop_spec (junk : Nat → Byte) : ∀ (fuel : Nat) (s : State) (bs : List Byte), WF s → 0 < s.chunkSize →
    bs.length ≤ fuel → ∃ s', writeStrLoop junk fuel s bs = some s' ∧ WF s' ∧ stream s' = stream s ++ bs ∧
      s'.chunkSize = s.chunkSize
  | 0, s, bs, h, _, hf => by
    have : bs = [] := List.length_eq_zero_iff.1 (by omega)
    subst this
    exact ⟨s, by simp [writeStrLoop], h, by simp, rfl⟩
  | fuel + 1, s, bs, h, hz, hf => by
    by_cases hb : bs = []
    · subst hb; exact ⟨s, by simp [writeStrLoop], h, by simp, rfl⟩
    · obtain ⟨s1, len, ds, last, o, e1, w1, st1, cz1, hc1, ho1, hou, hcap, hlen, hsum, _⟩ := getWriteBuffer_spec junk h hz
      have hpos := List.length_pos_iff.2 hb
      obtain ⟨s2, s3, e2, e3, w3, st3, cz3⟩ := produce_spec w1 hc1 ho1 (bs.take (min bs.length len))
        (min bs.length len) (by rw [List.length_take, cz1]; omega) (by rw [List.length_take]; omega)
      obtain ⟨s4, e4, w4, st4, cz4⟩ := writeStrLoop_spec junk fuel s3 (bs.drop (min bs.length len)) w3 (by omega)
        (by rw [List.length_drop]; omega)
      refine ⟨s4, ?_, w4, ?_, by omega⟩
      · simp only [writeStrLoop, hb, if_false, e1, Option.bind_eq_bind, Option.bind_some, e2, e3, e4]
      · rw [st4, st3, st1, List.take_take, Nat.min_self, List.append_assoc, List.take_append_drop]

theorem readLoop_zero (cs : List Chunk) (off : Nat) (total : Int) : readLoop cs off total 0 = some (cs, off, total, true) := by
  cases cs <;> rfl

theorem readLoop_cons (c : Chunk) (cs : List Chunk) (off : Nat) (total : Int) (got : Nat) :
    readLoop (c :: cs) off total (got + 1) =
      if off ≤ c.used then
        if c.used = off + min (got + 1) (c.used - off) then
          match cs with
          | [] => if total - (min (got + 1) (c.used - off) : Nat) = 0 then some ([], 0, 0, false) else none
          | c' :: cs' => readLoop (c' :: cs') 0 (total - (min (got + 1) (c.used - off) : Nat)) (got + 1 - min (got + 1) (c.used - off))
        else some (c :: cs, off + min (got + 1) (c.used - off), total - (min (got + 1) (c.used - off) : Nat), true)
      else none := by
  cases cs <;> rfl

/-- the loop of `krw_read_success` -/
theorem readLoop_spec : ∀ (cs : List Chunk) (off : Nat) (total : Int) (got : Nat), cs ≠ [] →
    (∀ c ∈ cs, c.used ≤ c.mem.length) → (∀ c ds, cs = c :: ds → off ≤ c.used) →
    total = ((flat cs).drop off).length →
    ∃ cs' off' total' flag, readLoop cs off total got = some (cs', off', total', flag) ∧
      (flat cs').drop off' = (flat cs).drop (off + got) ∧ cs' <:+ cs ∧ (∀ c ds, cs' = c :: ds → off' ≤ c.used) ∧
      total' = ((flat cs').drop off').length ∧ (flag = true ↔ cs' ≠ []) ∧ (cs' = [] → off' = 0)
  | [], _, _, _, hne, _, _, _ => absurd rfl hne
  | c :: cs, off, total, 0, _, hf, ho, ht => by
    refine ⟨c :: cs, off, total, true, readLoop_zero _ _ _, by simp, List.suffix_refl _, ho, ht, by simp, by simp⟩
  | c :: cs, off, total, got + 1, _, hf, ho, ht => by
    have hoc := ho c cs rfl
    have hbl := bytes_length (hf c (by simp))
    rw [readLoop_cons, if_pos hoc]
    split
    · rename_i hu
      have hn : min (got + 1) (c.used - off) = c.used - off := by omega
      have hdrop : (flat (c :: cs)).drop (off + (got + 1)) = (flat cs).drop (got + 1 - (c.used - off)) := by
        rw [flat_cons, List.drop_append, hbl, List.drop_eq_nil_of_le (by omega)]
        simp only [List.nil_append]; congr 1; omega
      have hdrop2 : ((flat (c :: cs)).drop off).length = (c.used - off) + (flat cs).length := by
        rw [flat_cons, List.drop_append, List.length_append, List.length_drop, List.length_drop, hbl]
        omega
      rw [hn]
      cases cs with
      | nil =>
        have h0 : total - ((c.used - off : Nat) : Int) = 0 := by
          rw [ht, hdrop2]; simp
        simp only [h0, if_true]
        refine ⟨[], 0, 0, false, rfl, ?_, List.nil_suffix, by simp, by simp, by simp, by simp⟩
        rw [hdrop]; simp
      | cons d ds =>
        simp only
        obtain ⟨cs', off', total', flag, e, a1, a2, a3, a4, a5, a6⟩ := readLoop_spec (d :: ds) 0
          (total - ((c.used - off : Nat) : Int)) (got + 1 - (c.used - off)) (by simp)
          (fun x hx => hf x (List.mem_cons_of_mem _ hx)) (fun _ _ _ => Nat.zero_le _)
          (by rw [ht, hdrop2, List.drop_zero]; omega)
        refine ⟨cs', off', total', flag, e, ?_, List.IsSuffix.trans a2 (List.suffix_cons _ _), a3, a4, a5, a6⟩
        rw [a1, hdrop, Nat.zero_add]
    · rename_i hu
      have hn : min (got + 1) (c.used - off) = got + 1 := by omega
      rw [hn] at hu ⊢
      refine ⟨c :: cs, off + (got + 1), _, true, rfl, rfl, List.suffix_refl _, ?_, ?_, by simp, by simp⟩
      · intro x xs e
        simp only [List.cons.injEq] at e
        rw [← e.1]; omega
      · rw [ht]
        simp only [List.length_drop, flat_cons, List.length_append, hbl]
        omega

theorem suffix_getLast? {as bs : List Chunk} (h : as <:+ bs) (hne : as ≠ []) : as.getLast? = bs.getLast? := by
  obtain ⟨t, rfl⟩ := h
  rw [List.getLast?_append]
  cases hl : as.getLast? with
  | none => rw [List.getLast?_eq_none_iff] at hl; exact absurd hl hne
  | some c => simp

theorem readSuccess_spec {s : State} (h : WF s) (hne : s.chunks ≠ []) (got : Nat) :
    ∃ s' flag, readSuccess s got = some (s', flag) ∧ WF s' ∧ stream s' = (stream s).drop got ∧
      s'.chunkSize = s.chunkSize ∧ (flag = true ↔ s'.chunks ≠ []) ∧ s'.chunks <:+ s.chunks := by
  obtain ⟨cs', off', total', flag, e, a1, a2, a3, a4, a5, a6⟩ :=
    readLoop_spec s.chunks s.readOff s.totalLen got hne h.fits h.off h.total
  have hst : (flat cs').drop off' = (stream s).drop got := by
    rw [a1, stream_eq, List.drop_drop]
  by_cases hcs : cs' = []
  · refine ⟨init s.chunkSize, flag, ?_, ⟨?_, ?_, ?_, ?_, ?_⟩, ?_, rfl, ?_, ?_⟩
    · simp only [readSuccess, hne, if_false, e, hcs, if_true]
    · simp [init]
    · simp [init]
    · simp [init]
    · simp [init]
    · simp [init, stream]
    · rw [← hst, hcs]; simp [init, stream]
    · rw [a5, hcs]; simp [init]
    · simp [init]
  · refine ⟨{ s with chunks := cs', readOff := off', totalLen := total' }, flag, ?_, ⟨?_, a3, ?_, ?_, a4⟩, hst, rfl, a5, a2⟩
    · simp only [readSuccess, hne, if_false, e, hcs]
    · intro c hc; exact h.fits c (a2.subset hc)
    · intro hc; exact absurd hc hcs
    · intro o ho c hc
      have hc' : cs'.getLast? = some c := hc
      rw [suffix_getLast? a2 hcs] at hc'
      exact h.last o ho c hc'

theorem getReadBuffers_all (s : State) (h : WF s) : (getReadBuffers s s.chunks.length).flatten = stream s := by
  unfold getReadBuffers
  cases hc : s.chunks with
  | nil => simp [stream_eq, hc]
  | cons c cs =>
    have hbl := bytes_length (h.fits c (by simp [hc]))
    have ho := h.off c cs hc
    simp only [List.length_cons, Nat.add_sub_cancel, List.take_length, List.flatten_cons, stream_eq, hc, flat_cons]
    rw [List.drop_append_of_le_length (by omega)]
    rfl

theorem readBytes_spec : ∀ (fuel : Nat) (s : State) (len : Nat), WF s → len ≤ fuel →
    ∃ s' out, readBytes fuel s len = some (s', out) ∧ WF s' ∧ out ++ stream s' = stream s ∧ out.length ≤ len ∧
      s'.chunkSize = s.chunkSize ∧
      ((∀ c ∈ s.chunks, 0 < c.used) → (∀ c cs, s.chunks = c :: cs → s.readOff < c.used) →
        out.length = min len (stream s).length)
  | fuel, s, 0, h, _ => ⟨s, [], by simp [readBytes], h, by simp, by simp, rfl, by simp⟩
  | 0, _, len + 1, _, hf => by omega
  | fuel + 1, s, len + 1, h, hf => by
    unfold readBytes
    cases hc : s.chunks with
    | nil =>
      simp only [getReadBuffers, hc]
      refine ⟨s, [], rfl, h, by simp, by simp, rfl, ?_⟩
      intro _ _; simp [stream_eq, hc]
    | cons c cs =>
      have hbl := bytes_length (h.fits c (by simp [hc]))
      have ho := h.off c cs hc
      have hb : (c.bytes.drop s.readOff).length = c.used - s.readOff := by rw [List.length_drop, hbl]
      have hst0 : stream s = c.bytes.drop s.readOff ++ flat cs := by
        rw [stream_eq, hc, flat_cons, List.drop_append_of_le_length (by omega)]
      have hgr : getReadBuffers s 1 = [c.bytes.drop s.readOff] := by
        simp only [getReadBuffers, hc]; simp [Chunk.bytes]
      simp only [hgr, hb]
      by_cases hz : min (c.used - s.readOff) (len + 1) = 0
      · simp only [hz, if_true]
        refine ⟨s, [], rfl, h, by simp, by simp, rfl, ?_⟩
        intro _ h2
        have := h2 c cs rfl; omega
      · simp only [hz, if_false]
        obtain ⟨s', flag, e, w, st, cz, hfl, hsf⟩ := readSuccess_spec h (by simp [hc]) (min (c.used - s.readOff) (len + 1))
        rw [e]
        have htk : (c.bytes.drop s.readOff).take (min (c.used - s.readOff) (len + 1)) ++ stream s' = stream s := by
          rw [st, hst0, List.drop_append_of_le_length (by omega), ← List.append_assoc, List.take_append_drop]
        have hlen : ((c.bytes.drop s.readOff).take (min (c.used - s.readOff) (len + 1))).length =
            min (c.used - s.readOff) (len + 1) := by rw [List.length_take, hb]; omega
        cases flag with
        | false =>
          have hs' : s'.chunks = [] := by
            refine Classical.byContradiction fun hne => ?_
            have := hfl.2 hne; cases this
          have hsn : stream s' = [] := by rw [stream_eq, hs']; simp
          refine ⟨s', _, rfl, w, htk, by rw [hlen]; omega, cz, ?_⟩
          intro _ _
          have := congrArg List.length htk
          rw [List.length_append, hsn, List.length_nil] at this
          rw [← this, hlen]; omega
        | true =>
          obtain ⟨s'', out, e2, w2, st2, hl2, cz2, hfull⟩ := readBytes_spec fuel s' (len + 1 - min (c.used - s.readOff) (len + 1)) w (by omega)
          simp only [e2]
          refine ⟨s'', _, rfl, w2, ?_, ?_, by omega, ?_⟩
          · rw [List.append_assoc, st2, htk]
          · rw [List.length_append, hlen]; omega
          · intro h1 h2
            have hlt := congrArg List.length htk
            rw [List.length_append, hlen] at hlt
            rw [List.length_append, hlen]
            by_cases hmin : len + 1 ≤ c.used - s.readOff
            · omega
            · rw [hfull]
              · omega
              · intro x hx; exact h1 x (hc ▸ hsf.subset hx)
              · -- the first chunk was used up, the next one is untouched
                intro x xs hx
                have hst' : stream s' = flat cs := by
                  rw [st, hst0, List.drop_append, List.drop_eq_nil_of_le (by omega), hb]
                  simp only [List.nil_append]
                  have : min (c.used - s.readOff) (len + 1) - (c.used - s.readOff) = 0 := by omega
                  rw [this, List.drop_zero]
                have hxu := h1 x (hc ▸ hsf.subset (by rw [hx]; simp))
                have hxb := bytes_length (w.fits x (by rw [hx]; simp))
                have hsx := w.off x xs hx
                refine Nat.lt_of_not_le fun hge => ?_
                -- then `s'` would still hold the used up chunk or more
                rw [stream_eq, hx, flat_cons, List.drop_append, List.drop_eq_nil_of_le (by omega)] at hst'
                have hl := congrArg List.length hst'
                simp only [List.nil_append, List.length_drop] at hl
                rw [hx, hc] at hsf
                obtain ⟨t, ht⟩ := hsf
                cases t with
                | nil =>
                  simp only [List.nil_append, List.cons.injEq] at ht
                  obtain ⟨rfl, rfl⟩ := ht
                  -- nothing was dropped although the chunk is used up: the loop would have freed it
                  have htot := congrArg List.length st
                  rw [stream_eq, hx, List.length_drop, List.length_drop, flat_cons, List.length_append] at htot
                  have hs1 : readSuccess s (min (x.used - s.readOff) (len + 1)) = some (s', true) := e
                  have hmn : min (x.used - s.readOff) (len + 1) = x.used - s.readOff := by omega
                  rw [hmn] at hs1
                  have hpos : 0 < x.used - s.readOff := by have := h2 x xs rfl; omega
                  obtain ⟨k, hk⟩ : ∃ k, x.used - s.readOff = k + 1 := ⟨x.used - s.readOff - 1, by omega⟩
                  rw [hk] at hs1
                  rw [readSuccess, hc, if_neg (by simp), readLoop_cons, if_pos ho, hk, Nat.min_self, if_pos (by omega)] at hs1
                  cases xs with
                  | nil =>
                    by_cases hh : s.totalLen - ((k + 1 : Nat) : Int) = 0
                    · simp only [hh, if_true] at hs1
                      injection hs1 with hs1
                      injection hs1 with _ hs1
                      cases hs1
                    · simp only [hh, if_false] at hs1
                      cases hs1
                  | cons y ys =>
                    simp only [Nat.sub_self, readLoop_zero, List.cons_ne_nil, if_false, Option.some.injEq, Prod.mk.injEq] at hs1
                    rw [← hs1.1] at hx
                    have := congrArg List.length hx
                    simp at this
                | cons u us =>
                  simp only [List.cons_append, List.cons.injEq] at ht
                  rw [← ht.2, flat_append, flat_cons, List.length_append, List.length_append] at hl
                  omega

end Kasync.KBuf
