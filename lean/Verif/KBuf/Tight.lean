import Verif.KBuf.Lemmas

/-!
# Tight buffers: no chunk without unread bytes

More facts on krw_buffer for clients that write only with `krw_write_str`: no chunk is empty, the read offset is inside
the first chunk, and what `krw_get_read_buffers` designated stays where it was while more is written.
-/

namespace Kasync.KBuf

/-- the fill levels of the chunks -/
def useds (s : State) : List Nat := s.chunks.map (·.used)

/-- every chunk has an unread byte -/
def Tight (s : State) : Prop :=
  (∀ u ∈ useds s, 0 < u) ∧ (∀ u us, useds s = u :: us → s.readOff < u)

/-- Chunks before the last one are unchanged, the last one may have become fuller, others may follow. -/
def growsU : List Nat → List Nat → Prop
  | [], _ => True
  | [u], us' => ∃ u' r, us' = u' :: r ∧ u ≤ u'
  | u :: v :: us, us' => ∃ r, us' = u :: r ∧ growsU (v :: us) r

theorem growsU_refl : ∀ us, growsU us us
  | [] => trivial
  | [u] => ⟨u, [], rfl, Nat.le_refl _⟩
  | _ :: v :: us => ⟨_, rfl, growsU_refl (v :: us)⟩

theorem growsU_append : ∀ us r, growsU us (us ++ r)
  | [], _ => trivial
  | [u], r => ⟨u, r, rfl, Nat.le_refl _⟩
  | _ :: v :: us, r => ⟨_, rfl, growsU_append (v :: us) r⟩

theorem growsU_last : ∀ us (u u' : Nat), u ≤ u' → growsU (us ++ [u]) (us ++ [u'])
  | [], _, u', h => ⟨u', [], rfl, h⟩
  | [_], u, u', h => ⟨_, rfl, growsU_last [] u u' h⟩
  | _ :: v :: us, u, u', h => ⟨_, rfl, growsU_last (v :: us) u u' h⟩

theorem growsU_trans : ∀ {a b c : List Nat}, growsU a b → growsU b c → growsU a c
  | [], _, _, _, _ => trivial
  | [u], _, c, ⟨u', r, hb, h⟩, h2 => by
    subst hb
    cases r with
    | nil => obtain ⟨u'', r', e, h'⟩ := h2; exact ⟨u'', r', e, Nat.le_trans h h'⟩
    | cons v r => obtain ⟨r', e, _⟩ := h2; exact ⟨u', r', e, h⟩
  | u :: v :: us, _, c, ⟨r, hb, h⟩, h2 => by
    subst hb
    cases r with
    | nil =>
      exfalso
      cases us with
      | nil => obtain ⟨_, _, h, _⟩ := h; cases h
      | cons _ _ => obtain ⟨_, h, _⟩ := h; cases h
    | cons w r => obtain ⟨r', e, h'⟩ := h2; exact ⟨r', e, growsU_trans h h'⟩

theorem useds_getLast? (s : State) : (useds s).getLast? = s.chunks.getLast?.map (·.used) := by
  simp [useds]

theorem getWriteBuffer_useds (junk : Nat → Byte) {s s' : State} {len : Nat} (h : WF s)
    (e : getWriteBuffer junk s = some (s', len)) :
    (useds s' = useds s ∨ useds s' = useds s ++ [0]) ∧ s'.readOff = s.readOff := by
  by_cases hne : s.chunks = []
  · obtain ⟨h1, h2⟩ := h.empty hne
    simp only [getWriteBuffer, hne, if_true, List.getLast?_singleton, newbuff] at e
    split at e
    · split at e
      · simp at e
      · rename_i hz _
        rcases hz with hz | hz
        · exfalso; simp at hz; omega
        · simp at hz
    · split at e
      · simp only [Option.some.injEq, Prod.mk.injEq] at e
        obtain ⟨rfl, -⟩ := e
        simp [useds, hne, h1]
      · simp at e
  · simp only [getWriteBuffer, hne, if_false] at e
    split at e
    · simp at e
    · split at e
      · split at e
        · simp at e
        · simp only [Option.some.injEq, Prod.mk.injEq] at e
          obtain ⟨rfl, -⟩ := e
          simp [useds, newbuff]
      · split at e
        · simp only [Option.some.injEq, Prod.mk.injEq] at e
          obtain ⟨rfl, -⟩ := e
          simp
        · simp at e

theorem fill_useds {s s' : State} {bs : List Byte} (e : fill s bs = some s') :
    useds s' = useds s ∧ s'.readOff = s.readOff := by
  unfold fill at e
  split at e
  · rename_i last off hl ho
    split at e
    · obtain ⟨ds, hc⟩ := getLast?_concat' hl
      simp only [Option.some.injEq] at e
      subst e
      simp [useds, hc, modifyLast_concat]
    · simp at e
  · simp at e

theorem writeSuccess_useds {s s' : State} {got : Nat} (e : writeSuccess s got = some s') :
    (∃ us u, useds s = us ++ [u] ∧ useds s' = us ++ [u + got]) ∧ s'.readOff = s.readOff := by
  unfold writeSuccess at e
  split at e
  · simp at e
  · rename_i hne
    simp only [Option.some.injEq] at e
    subst e
    obtain ⟨ds, l, hc⟩ : ∃ ds l, s.chunks = ds ++ [l] := ⟨_, _, (List.dropLast_concat_getLast hne).symm⟩
    refine ⟨⟨ds.map (·.used), l.used, ?_, ?_⟩, rfl⟩
    · simp [useds, hc]
    · simp [useds, hc, modifyLast_concat]

theorem writeStrLoop_tight (junk : Nat → Byte) : ∀ (fuel : Nat) (s : State) (bs : List Byte), WF s → 0 < s.chunkSize →
    Tight s → bs.length ≤ fuel → ∃ s', writeStrLoop junk fuel s bs = some s' ∧ WF s' ∧ stream s' = stream s ++ bs ∧
      s'.chunkSize = s.chunkSize ∧ Tight s' ∧ growsU (useds s) (useds s') ∧ s'.readOff = s.readOff
  | 0, s, bs, h, _, ht, hf => by
    have : bs = [] := List.length_eq_zero_iff.1 (by omega)
    subst this
    exact ⟨s, by simp [writeStrLoop], h, by simp, rfl, ht, growsU_refl _, rfl⟩
  | fuel + 1, s, bs, h, hz, ht, hf => by
    by_cases hb : bs = []
    · subst hb; exact ⟨s, by simp [writeStrLoop], h, by simp, rfl, ht, growsU_refl _, rfl⟩
    · have hpos : 0 < bs.length := List.length_pos_iff.2 hb
      obtain ⟨s1, len, ds, last, o, e1, w1, st1, z1, c1, o1, o2, o3, l1, l2, -⟩ := getWriteBuffer_spec junk h hz
      have hm : 0 < min bs.length len := by omega
      obtain ⟨s2, s3, e2, e3, w3, st3, z3⟩ := produce_spec w1 c1 o1 (bs.take (min bs.length len)) (min bs.length len)
        (by simp; omega) (by simp)
      obtain ⟨u1, r1⟩ := getWriteBuffer_useds junk h e1
      obtain ⟨u2, r2⟩ := fill_useds e2
      obtain ⟨⟨us, u, u3, u4⟩, r3⟩ := writeSuccess_useds e3
      have hroff : s3.readOff = s.readOff := by rw [r3, r2, r1]
      have hg : growsU (useds s) (useds s3) := by
        rw [u2] at u3
        rcases u1 with u1 | u1
        · rw [u4, ← u1, u3]; exact growsU_last _ _ _ (by omega)
        · rw [u1] at u3
          obtain ⟨rfl, hu⟩ := List.append_inj' u3 rfl
          rw [u4]; exact growsU_append _ _
      have ht3 : Tight s3 := by
        rw [u2] at u3
        rcases u1 with u1 | u1
        · rw [u1] at u3
          refine ⟨?_, ?_⟩
          · intro v hv
            rw [u4] at hv
            rcases List.mem_append.1 hv with hv | hv
            · exact ht.1 v (by rw [u3]; simp [hv])
            · simp at hv; omega
          · intro v vs hv
            rw [hroff]
            rw [u4] at hv
            cases us with
            | nil =>
              have := ht.2 u [] (by rw [u3]; rfl)
              simp at hv; omega
            | cons w ws =>
              have := ht.2 w (ws ++ [u]) (by rw [u3]; rfl)
              simp at hv; omega
        · rw [u1] at u3
          obtain ⟨rfl, hu⟩ := List.append_inj' u3 rfl
          simp at hu
          refine ⟨?_, ?_⟩
          · intro v hv
            rw [u4] at hv
            rcases List.mem_append.1 hv with hv | hv
            · exact ht.1 v hv
            · simp at hv; omega
          · intro v vs hv
            rw [hroff]
            rw [u4] at hv
            cases hus : useds s with
            | nil =>
              have hc : s.chunks = [] := by simpa [useds] using hus
              have := (h.empty hc).1
              rw [hus] at hv
              simp at hv; omega
            | cons w ws =>
              have := ht.2 w ws hus
              rw [hus] at hv
              simp at hv; omega
      obtain ⟨s', e', w', st', z', t', g', ro'⟩ := writeStrLoop_tight junk fuel s3 (bs.drop (min bs.length len)) w3
        (by omega) ht3 (by simp; omega)
      refine ⟨s', ?_, w', ?_, by omega, t', growsU_trans hg g', by rw [ro', hroff]⟩
      · simp only [writeStrLoop, hb, if_false, e1, Option.bind_eq_bind, Option.bind_some, e2, e3, e']
      · rw [st', st3, st1, List.take_take, Nat.min_self, List.append_assoc, List.take_append_drop]

theorem writeStr_tight (junk : Nat → Byte) {s : State} (bs : List Byte) (h : WF s) (hz : 0 < s.chunkSize)
    (ht : Tight s) : ∃ s', writeStr junk s bs = some s' ∧ WF s' ∧ stream s' = stream s ++ bs ∧
      s'.chunkSize = s.chunkSize ∧ Tight s' ∧ growsU (useds s) (useds s') ∧ s'.readOff = s.readOff :=
  writeStrLoop_tight junk _ s bs h hz ht (Nat.le_refl _)

theorem readLoop_strict : ∀ (cs : List Chunk) (off : Nat) (total : Int) (got : Nat) {cs' : List Chunk} {off' : Nat}
    {total' : Int} {flag : Bool}, (∀ c ∈ cs, 0 < c.used) → (∀ c ds, cs = c :: ds → off < c.used) →
    readLoop cs off total got = some (cs', off', total', flag) → ∀ c ds, cs' = c :: ds → off' < c.used
  | cs, off, total, 0, _, _, _, _, _, ho, e => by
    rw [readLoop_zero] at e
    simp only [Option.some.injEq, Prod.mk.injEq] at e
    obtain ⟨rfl, rfl, -, -⟩ := e
    exact ho
  | [], _, _, _ + 1, _, _, _, _, _, _, e => by
    change none = some _ at e
    cases e
  | [c], off, total, got + 1, _, _, _, _, hp, ho, e => by
    rw [readLoop_cons] at e
    split at e
    · split at e
      · simp only at e
        split at e
        · simp only [Option.some.injEq, Prod.mk.injEq] at e
          obtain ⟨rfl, rfl, -, -⟩ := e
          intro c ds h; simp at h
        · simp at e
      · simp only [Option.some.injEq, Prod.mk.injEq] at e
        obtain ⟨rfl, rfl, -, -⟩ := e
        intro d ds h
        simp at h
        have := h.1
        subst this
        omega
    · simp at e
  | c :: c' :: cs, off, total, got + 1, _, _, _, _, hp, ho, e => by
    rw [readLoop_cons] at e
    split at e
    · split at e
      · simp only at e
        exact readLoop_strict (c' :: cs) 0 _ _ (fun d hd => hp d (List.mem_cons_of_mem _ hd))
          (fun d ds hd => by
            have : d = c' := by simp at hd; exact hd.1.symm
            subst this
            exact hp _ (by simp)) e
      · simp only [Option.some.injEq, Prod.mk.injEq] at e
        obtain ⟨rfl, rfl, -, -⟩ := e
        intro d ds h
        simp at h
        have := h.1
        subst this
        omega
    · simp at e

theorem tight_iff (s : State) : Tight s ↔
    (∀ c ∈ s.chunks, 0 < c.used) ∧ (∀ c cs, s.chunks = c :: cs → s.readOff < c.used) := by
  unfold Tight useds
  constructor
  · rintro ⟨h1, h2⟩
    refine ⟨fun c hc => h1 _ (List.mem_map_of_mem hc), fun c cs hc => h2 _ (cs.map (·.used)) (by simp [hc])⟩
  · rintro ⟨h1, h2⟩
    refine ⟨fun u hu => ?_, fun u us hu => ?_⟩
    · obtain ⟨c, hc, rfl⟩ := List.mem_map.1 hu
      exact h1 c hc
    · cases hc : s.chunks with
      | nil => simp [hc] at hu
      | cons c cs =>
        simp [hc] at hu
        have := h2 c cs hc
        omega

theorem tight_init (n : Nat) : Tight (init n) := by simp [Tight, useds, init]

theorem readSuccess_tight {s : State} (h : WF s) (ht : Tight s) (hne : s.chunks ≠ []) (got : Nat) :
    ∃ s' flag, readSuccess s got = some (s', flag) ∧ WF s' ∧ stream s' = (stream s).drop got ∧
      s'.chunkSize = s.chunkSize ∧ (flag = true ↔ s'.chunks ≠ []) ∧ Tight s' := by
  obtain ⟨s', flag, e, w, st, z, f, suf⟩ := readSuccess_spec h hne got
  refine ⟨s', flag, e, w, st, z, f, ?_⟩
  rw [tight_iff] at ht ⊢
  refine ⟨fun c hc => ht.1 c (suf.subset hc), ?_⟩
  unfold readSuccess at e
  rw [if_neg hne] at e
  split at e
  · simp at e
  · rename_i cs off total fl hl
    have := readLoop_strict _ _ _ _ ht.1 ht.2 hl
    split at e
    · simp only [Option.some.injEq, Prod.mk.injEq] at e
      obtain ⟨rfl, -⟩ := e
      intro c cs hc; simp [init] at hc
    · simp only [Option.some.injEq, Prod.mk.injEq] at e
      obtain ⟨rfl, -⟩ := e
      exact this

theorem tight_stream_nil {s : State} (h : WF s) (ht : Tight s) : stream s = [] ↔ s.chunks = [] := by
  constructor
  · intro hs
    cases hc : s.chunks with
    | nil => rfl
    | cons c cs =>
      exfalso
      have h1 := (tight_iff s).1 ht |>.2 c cs hc
      have h2 := bytes_length (h.fits c (by simp [hc]))
      have h3 : (stream s).length = 0 := by rw [hs]; rfl
      rw [stream_eq, hc, flat_cons] at h3
      simp at h3
      omega
  · intro hc
    simp [stream_eq, hc, flat]

theorem total_nonpos {s : State} (h : WF s) : s.totalLen ≤ 0 ↔ stream s = [] := by
  rw [h.total]
  constructor
  · intro hh; exact List.length_eq_zero_iff.1 (by omega)
  · intro hh; rw [hh]; simp

end Kasync.KBuf
