import Verif.Tls.Bio
import Mathlib.Tactic.ClearExcept

/-! # Lemmas on the BIO data path -/

namespace Kasync.Tls.Bio

open KBuf (Byte WF stream Tight useds growsU)

/-- shape of the incoming buffer: at most one chunk, of full size, with unread bytes or never used -/
def RB (b : KBuf.State) : Prop :=
  b.chunks = [] ∨ ∃ c, b.chunks = [c] ∧ b.writeOff = some c.used ∧ c.mem.length = b.chunkSize ∧
    (b.readOff < c.used ∨ (c.used = 0 ∧ b.readOff = 0))

theorem rb_init (n : Nat) : RB (KBuf.init n) := Or.inl rfl

theorem stream_single {b : KBuf.State} {c : KBuf.Chunk} (hc : b.chunks = [c]) :
    stream b = (c.mem.take c.used).drop b.readOff := by
  simp [KBuf.stream, hc, KBuf.Chunk.bytes]

theorem rb_stream_nil {b : KBuf.State} (hw : WF b) (hb : RB b) : stream b = [] ↔
    b.chunks = [] ∨ ∃ c, b.chunks = [c] ∧ b.writeOff = some 0 ∧ c.mem.length = b.chunkSize ∧ c.used = 0 ∧ b.readOff = 0 := by
  rcases hb with hb | ⟨c, hc, ho, hl, hr⟩
  · simp [KBuf.stream, hb]
  · have hs := stream_single hc
    have hf := hw.fits c (by simp [hc])
    rcases hr with hr | ⟨h1, h2⟩
    · constructor
      · intro h
        rw [h] at hs
        have : (0 : Nat) = ((c.mem.take c.used).drop b.readOff).length := by rw [← hs]; rfl
        simp at this
        omega
      · rintro (h | ⟨d, hd, -, -, h, -⟩)
        · rw [hc] at h; cases h
        · rw [hc] at hd; cases hd; omega
    · constructor
      · intro _; right; exact ⟨c, hc, by rw [ho, h1], hl, h1, h2⟩
      · intro _; rw [hs, h1]; simp

theorem readSuccess_single {b : KBuf.State} {c : KBuf.Chunk} (hw : WF b) (hc : b.chunks = [c]) {m : Nat}
    (hm : 0 < m) (hle : m ≤ c.used - b.readOff) (hr : b.readOff < c.used) :
    KBuf.readSuccess b m = if b.readOff + m = c.used then some (KBuf.init b.chunkSize, false)
      else some ({ b with readOff := b.readOff + m, totalLen := b.totalLen - m }, true) := by
  obtain ⟨k, rfl⟩ : ∃ k, m = k + 1 := ⟨m - 1, by omega⟩
  have hf := hw.fits c (by simp [hc])
  have ht : b.totalLen = c.used - b.readOff := by
    rw [hw.total, stream_single hc]; simp; omega
  have hmin : min (k + 1) (c.used - b.readOff) = k + 1 := by omega
  unfold KBuf.readSuccess
  rw [hc, if_neg (by simp), KBuf.readLoop_cons, if_pos (by omega), hmin]
  by_cases h : c.used = b.readOff + (k + 1)
  · rw [if_pos h, if_pos h.symm]
    have : b.totalLen - ((k + 1 : Nat) : Int) = 0 := by omega
    simp only [this, if_true]
  · rw [if_neg h, if_neg (fun e => h e.symm)]
    simp only [List.cons_ne_nil, if_false]
    try (cases b; simp only at hc; subst hc; rfl)

theorem read_rb {b : KBuf.State} (hw : WF b) (hb : RB b) (n : Nat) :
    ∃ b' out, KBuf.read b (n + 1) = some (b', out) ∧ WF b' ∧ RB b' ∧ out ++ stream b' = stream b ∧
      b'.chunkSize = b.chunkSize ∧ (out = [] → stream b = []) ∧ (stream b = [] → b' = b ∧ out = []) := by
  obtain ⟨b', out, e, w, o, -, z, -⟩ := KBuf.readBytes_spec (n + 1) b (n + 1) hw (Nat.le_refl _)
  rcases hb with hb | ⟨c, hc, ho, hl, hr⟩
  · have : KBuf.readBytes (n + 1) b (n + 1) = some (b, []) := by simp [KBuf.readBytes, KBuf.getReadBuffers, hb]
    have hs : stream b = [] := by simp [KBuf.stream, hb]
    exact ⟨b, [], this, hw, Or.inl hb, rfl, rfl, fun _ => hs, fun _ => ⟨rfl, rfl⟩⟩
  · have hf := hw.fits c (by simp [hc])
    rcases hr with hr | ⟨h1, h2⟩
    · have hs : (stream b).length = c.used - b.readOff := by rw [stream_single hc]; simp; omega
      have hne : stream b ≠ [] := by intro h; rw [h] at hs; simp at hs; omega
      have hg : KBuf.getReadBuffers b 1 = [stream b] := by
        rw [stream_single hc]; simp [KBuf.getReadBuffers, hc]
      have hm : 0 < min (stream b).length (n + 1) := by omega
      have hrs := readSuccess_single (m := min (stream b).length (n + 1)) hw hc hm (by omega) hr
      simp only [KBuf.readBytes, hg] at e
      rw [if_neg (by omega), hrs] at e
      by_cases h : b.readOff + min (stream b).length (n + 1) = c.used
      · rw [if_pos h] at e
        simp only [Option.some.injEq, Prod.mk.injEq] at e
        obtain ⟨rfl, rfl⟩ := e
        refine ⟨_, _, ?_, w, Or.inl rfl, o, z, ?_, fun h => absurd h hne⟩
        · simp only [KBuf.read, KBuf.readBytes, hg]
          rw [if_neg (by omega), hrs, if_pos h]
        · intro h0
          have := congrArg List.length h0
          simp at this
          omega
      · rw [if_neg h] at e
        have hz : n + 1 - min (stream b).length (n + 1) = 0 := by omega
        have hnil : ∀ (s : KBuf.State), KBuf.readBytes n s 0 = some (s, []) := by intro s; cases n <;> rfl
        simp only [hz, hnil, List.append_nil, Option.some.injEq, Prod.mk.injEq] at e
        obtain ⟨rfl, rfl⟩ := e
        refine ⟨_, _, ?_, w, Or.inr ⟨c, hc, ho, hl, Or.inl (by simp only; omega)⟩, o, z, ?_, fun h => absurd h hne⟩
        · simp only [KBuf.read, KBuf.readBytes, hg]
          rw [if_neg (by omega), hrs, if_neg h]
          simp only [hz, hnil, List.append_nil]
        · intro h0
          have := congrArg List.length h0
          simp at this
          omega
    · have hs : stream b = [] := by rw [stream_single hc, h1]; simp
      have : KBuf.readBytes (n + 1) b (n + 1) = some (b, []) := by
        simp [KBuf.readBytes, KBuf.getReadBuffers, hc, h1]
      exact ⟨b, [], this, hw, Or.inr ⟨c, hc, ho, hl, Or.inr ⟨h1, h2⟩⟩, by simp, rfl, fun _ => hs, fun _ => ⟨rfl, rfl⟩⟩

/-- reserving room in an empty incoming buffer: one whole chunk -/
theorem reserve_rb (junk : Nat → Byte) {b : KBuf.State} (hw : WF b) (hb : RB b) (hz : 0 < b.chunkSize)
    (hs : stream b = []) : ∃ b' c, KBuf.getWriteBuffer junk b = some (b', b.chunkSize) ∧ WF b' ∧ RB b' ∧ stream b' = [] ∧
      b'.chunkSize = b.chunkSize ∧ b'.chunks = [c] ∧ c.used = 0 ∧ c.mem.length = b.chunkSize ∧ b'.writeOff = some 0 := by
  obtain ⟨b', len, ds, last, o, e, w, st, z, c1, o1, o2, l1, l2, l3, r⟩ :=
    KBuf.getWriteBuffer_spec junk hw hz
  have hst : stream b' = [] := by rw [st, hs]
  have key : ∃ c, b'.chunks = [c] ∧ c.used = 0 := by
    rcases (rb_stream_nil hw hb).1 hs with hn | ⟨c, hc, ho, hl, hu, hr⟩
    · obtain ⟨h, -⟩ := KBuf.getWriteBuffer_useds junk hw e
      have hn' : useds b = [] := by simp [KBuf.useds, hn]
      rw [hn'] at h
      have hcl : useds b' = ds.map (·.used) ++ [last.used] := by simp [KBuf.useds, c1]
      rcases h with h | h
      · rw [hcl] at h; simp at h
      · rw [hcl] at h
        have hd : ds.map (·.used) = [] := by
          have := congrArg List.length h
          simp at this
          simp [this]
        rw [hd] at h
        simp at h hd
        subst hd
        exact ⟨last, c1, h⟩
    · refine ⟨c, ?_, hu⟩
      have : KBuf.getWriteBuffer junk b = some (b, b.chunkSize) := by
        unfold KBuf.getWriteBuffer
        rw [if_neg (by rw [hc]; simp)]
        simp only [hc, List.getLast?_singleton, hu, ho]
        rw [if_neg (by simp; omega), if_pos (by simp; omega)]
        simp
      rw [this] at e
      simp only [Option.some.injEq, Prod.mk.injEq] at e
      rw [← e.1, hc]
  obtain ⟨c, hc, hu⟩ := key
  have hlast : last = c := by
    rw [c1] at hc
    have := congrArg List.getLast? hc
    simpa using this
  subst hlast
  have ho : o = 0 := by omega
  have hlen : len = b.chunkSize := by omega
  have hro : b'.readOff = 0 := by have := w.off last [] hc; omega
  subst hlen
  refine ⟨b', last, e, w, Or.inr ⟨last, hc, by rw [o1, ho, hu], by omega, Or.inr ⟨hu, hro⟩⟩, hst, by omega, hc, hu, by omega,
    by rw [o1, ho]⟩

/-- bytes arriving in the reserved room -/
theorem arrive_rb {b : KBuf.State} {c : KBuf.Chunk} (hw : WF b) (hc : b.chunks = [c])
    (hu : c.used = 0) (ho : b.writeOff = some 0) {bs : List Byte} (hne : bs ≠ []) (hle : bs.length ≤ b.chunkSize) :
    ∃ b', ((KBuf.fill b bs).bind fun b => KBuf.writeSuccess b bs.length) = some b' ∧ WF b' ∧ RB b' ∧
      stream b' = stream b ++ bs ∧ b'.chunkSize = b.chunkSize := by
  obtain ⟨b1, b2, e1, e2, w, st, z⟩ := KBuf.produce_spec hw (ds := []) (last := c) (o := 0) (by simpa using hc) ho bs
    bs.length (by omega) (Nat.le_refl _)
  refine ⟨b2, by rw [e1]; exact e2, w, ?_, by rw [st, List.take_length], by omega⟩
  have hcl := hw.last 0 ho c (by simp [hc])
  have hro : b.readOff = 0 := by have := hw.off c [] hc; omega
  have hpos : 0 < bs.length := List.length_pos_iff.2 hne
  have hf : KBuf.fill b bs = some { b with chunks := [{ c with mem := KBuf.overlay c.mem 0 bs }] } := by
    simp only [KBuf.fill, hc, List.getLast?_singleton, ho]
    rw [if_pos (by omega)]
    simp [KBuf.modifyLast]
  rw [hf] at e1
  cases e1
  simp only [KBuf.writeSuccess, List.cons_ne_nil, if_false, KBuf.modifyLast, ho, Option.map_some] at e2
  cases e2
  refine Or.inr ⟨_, rfl, ?_, ?_, Or.inl ?_⟩
  · simp [hu]
  · simp only; rw [KBuf.overlay_length _ _ _ (by omega)]; omega
  · simp only; omega

/-! ## iovecs of the outgoing buffer -/

/-- the captured lengths lie inside the chunks, and all but the last one go up to the end of their chunk -/
def lensOk : List Nat → Nat → List Nat → Prop
  | _, _, [] => True
  | [], _, _ :: _ => False
  | u :: _, off, [l] => off + l ≤ u
  | u :: us, off, l :: l' :: ls => off + l = u ∧ us ≠ [] ∧ lensOk us 0 (l' :: ls)

theorem lensOk_grows : ∀ {us us' : List Nat} {off : Nat} {lens : List Nat}, growsU us us' → lensOk us off lens →
    lensOk us' off lens
  | _, us', _, [], _, _ => by cases us' <;> trivial
  | [], _, _, _ :: _, _, h => h.elim
  | [u], _, off, [l], ⟨u', r, e, hu⟩, h => by subst e; simp only [lensOk] at h ⊢; omega
  | u :: v :: us, _, off, [l], ⟨r, e, _⟩, h => by subst e; exact h
  | [u], _, off, l :: l' :: ls, _, h => by simp only [lensOk] at h; exact absurd rfl h.2.1
  | u :: v :: us, _, off, l :: l' :: ls, ⟨r, e, hg⟩, h => by
    subst e
    simp only [lensOk] at h ⊢
    refine ⟨h.1, ?_, lensOk_grows hg h.2.2⟩
    intro hr
    subst hr
    cases us with
    | nil => obtain ⟨_, _, e, _⟩ := hg; cases e
    | cons _ _ => obtain ⟨_, e, _⟩ := hg; cases e

theorem iovBytes_prefix : ∀ (cs : List KBuf.Chunk) (off : Nat) (lens : List Nat),
    (∀ c ∈ cs, c.used ≤ c.mem.length) → lensOk (cs.map (·.used)) off lens →
    ∃ rest, (KBuf.flat cs).drop off = iovBytes cs off lens ++ rest ∧ (iovBytes cs off lens).length = lens.sum
  | cs, off, [], _, _ => ⟨(KBuf.flat cs).drop off, by cases cs <;> simp [iovBytes], by cases cs <;> simp [iovBytes]⟩
  | [], _, _ :: _, _, h => by simp [lensOk] at h
  | c :: cs, off, [l], hf, h => by
    have hc := hf c (by simp)
    simp only [List.map_cons, lensOk] at h
    have hb := KBuf.bytes_length hc
    refine ⟨(c.bytes.drop (off + l)) ++ KBuf.flat cs, ?_, ?_⟩
    · rw [KBuf.flat_cons, List.drop_append_of_le_length (by omega)]
      have : iovBytes (c :: cs) off [l] = (c.bytes.drop off).take l := by
        have hi : iovBytes cs 0 [] = [] := by cases cs <;> rfl
        simp only [iovBytes, hi, List.append_nil, KBuf.Chunk.bytes]
        rw [List.take_drop, List.take_drop, List.take_take, Nat.min_eq_left h]
      rw [this, ← List.append_assoc]
      congr 1
      rw [← List.drop_drop, List.take_append_drop]
    · have hi : iovBytes cs 0 [] = [] := by cases cs <;> rfl
      simp only [iovBytes, hi, List.append_nil, List.length_take, List.length_drop, List.sum_cons, List.sum_nil]
      omega
  | c :: cs, off, l :: l' :: ls, hf, h => by
    have hc := hf c (by simp)
    simp only [List.map_cons, lensOk] at h
    have hb := KBuf.bytes_length hc
    obtain ⟨rest, e, el⟩ := iovBytes_prefix cs 0 (l' :: ls) (fun d hd => hf d (by simp [hd])) h.2.2
    refine ⟨rest, ?_, ?_⟩
    · rw [KBuf.flat_cons, List.drop_append_of_le_length (by omega)]
      have : iovBytes (c :: cs) off (l :: l' :: ls) = c.bytes.drop off ++ iovBytes cs 0 (l' :: ls) := by
        rw [iovBytes]
        congr 1
        simp only [KBuf.Chunk.bytes]
        rw [List.take_drop, h.1]
      rw [this, List.append_assoc, ← e, List.drop_zero]
    · rw [iovBytes, List.length_append, el]
      simp only [List.length_take, List.length_drop, List.sum_cons]
      omega

theorem lensOk_all : ∀ (us : List Nat) (off : Nat) (u : Nat) (n : Nat), off ≤ u →
    lensOk (u :: us) off ((u - off) :: us.take n)
  | [], off, u, n, h => by simp only [List.take_nil, lensOk]; omega
  | v :: us, off, u, 0, h => by simp only [List.take_zero, lensOk]; omega
  | v :: us, off, u, n + 1, h => by
    have := lensOk_all us 0 v n (Nat.zero_le _)
    simp only [List.take_succ_cons, lensOk]
    exact ⟨by omega, by simp, this⟩

/-- the iovecs of `buffer_ssl_bio_write` for a buffer with bytes in it -/
theorem iovLens_ok {b : KBuf.State} (hw : WF b) (ht : Tight b) (hne : b.chunks ≠ []) :
    iovLens b ≠ [] ∧ (∀ l ∈ iovLens b, 0 < l) ∧ (iovLens b).length ≤ maxIov ∧ lensOk (useds b) b.readOff (iovLens b) := by
  cases hc : b.chunks with
  | nil => exact absurd hc hne
  | cons c cs =>
    have hf := hw.fits
    rw [hc] at hf
    have h1 := ((KBuf.tight_iff b).1 ht).2 c cs hc
    have h2 := ((KBuf.tight_iff b).1 ht).1
    have hcl := hf c (by simp)
    have e : iovLens b = (c.used - b.readOff) :: (cs.map (·.used)).take 62 := by
      simp only [iovLens, KBuf.getReadBuffers, hc, List.map_cons, List.cons.injEq]
      refine ⟨by simp; omega, ?_⟩
      rw [List.map_map, ← List.map_take]
      apply List.map_congr_left
      intro d hd
      have := hf d (by simp [List.mem_of_mem_take hd])
      simp
      omega
    rw [e]
    refine ⟨by simp, ?_, by simp [maxIov]; omega, ?_⟩
    · intro l hl
      rcases List.mem_cons.1 hl with rfl | hl
      · omega
      · obtain ⟨d, hd, rfl⟩ := List.mem_map.1 (List.mem_of_mem_take hl)
        exact h2 d (by simp [hc, hd])
    · have : useds b = c.used :: cs.map (·.used) := by simp [KBuf.useds, hc]
      rw [this]
      exact lensOk_all _ _ _ _ (by omega)

end Kasync.Tls.Bio
