import Verif.Str.KString

/-!
# C39: shared strings
-/

namespace Kasync.Str

/-- Number of references that exist: owned ones, and those being given up but not yet subtracted. -/
def live (s : St) : Nat := s.holders.length + s.checked.length

/-- The client keeps fewer than 0xfffffff references at all times: every prefix of the schedule that is still
defined has fewer. -/
def Few (s : St) (os : List Op) : Prop :=
  ∀ pre post s', os = pre ++ post → run s pre = .ok s' → live s' < 0xfffffff

/-- Invariant: the counter counts the references; nobody frees while a reference exists; each block is freed at
most once, by the one thread whose decrement reached 0. -/
structure Inv (s : St) : Prop where
  cnt : s.ref = live s
  alive : live s > 0 → s.dataFreed = 0 ∧ s.freed = 0 ∧ s.freeing = [] ∧ s.freeing2 = []
  once : live s = 0 →
    (s.freeing.length = 1 ∧ s.freeing2 = [] ∧ s.dataFreed = 0 ∧ s.freed = 0) ∨
    (s.freeing = [] ∧ s.freeing2.length = 1 ∧ s.dataFreed = 1 ∧ s.freed = 0) ∨
    (s.freeing = [] ∧ s.freeing2 = [] ∧ s.dataFreed = 1 ∧ s.freed = 1)

theorem length_erase_of {t : Nat} {l : List Nat} (h : t ∈ l) : (l.erase t).length + 1 = l.length := by
  rw [List.length_erase_of_mem h]
  have := List.length_pos_of_mem h
  omega

theorem touch_ok {s : St} {r : Res St} (h : s.freed = 0) : touch s r = r := if_pos h

theorem inv_init (t : Nat) (d : Bytes) (n : Nat) : Inv (convertRefsString t d n) := by
  refine ⟨rfl, fun _ => ⟨rfl, rfl, rfl, rfl⟩, fun h => ?_⟩
  simp [live, convertRefsString] at h

/-- A step from a good state with few references is defined and leads to a good state. -/
theorem inv_step {s : St} (h : Inv s) (hf : live s < 0xfffffff) (o : Op) :
    (∃ s', step s o = .ok s' ∧ Inv s' ∧ s'.data = s.data ∧ s'.len = s.len) ∨ step s o = .refused := by
  cases o with
  | refs t =>
    simp only [step]
    split
    · rename_i hm
      have hp := List.length_pos_of_mem hm
      have ha := h.alive (by unfold live; omega)
      left
      refine ⟨_, touch_ok ha.2.1, ⟨?_, fun _ => ha, ?_⟩, rfl, rfl⟩
      · have := h.cnt; simp only [live, List.length_cons] at *; omega
      · intro h0; simp only [live, List.length_cons] at h0; omega
    · right; rfl
  | give t u =>
    simp only [step]
    split
    · rename_i hm
      have hp := length_erase_of hm
      have ha := h.alive (by unfold live; omega)
      left
      refine ⟨_, rfl, ⟨?_, fun _ => ha, ?_⟩, rfl, rfl⟩
      · have := h.cnt; simp only [live, List.length_cons] at *; omega
      · intro h0; simp only [live, List.length_cons] at h0; omega
    · right; rfl
  | getRef t =>
    simp only [step]
    split
    · rename_i hm
      have hp := List.length_pos_of_mem hm
      have ha := h.alive (by unfold live; omega)
      left
      exact ⟨s, by simp only [touch, ha.2.1, if_true], h, rfl, rfl⟩
    · right; rfl
  | read t =>
    simp only [step]
    split
    · rename_i hm
      have hp := List.length_pos_of_mem hm
      have ha := h.alive (by unfold live; omega)
      left
      exact ⟨s, by simp only [touch, ha.1, ha.2.1, if_true], h, rfl, rfl⟩
    · right; rfl
  | relCheck t =>
    simp only [step]
    split
    · rename_i hm
      have hp := length_erase_of hm
      have ha := h.alive (by unfold live; omega)
      have hc : s.ref < 0xfffffff := by rw [h.cnt]; exact hf
      left
      refine ⟨_, (touch_ok ha.2.1).trans (if_pos hc), ⟨?_, fun _ => ha, ?_⟩, rfl, rfl⟩
      · have := h.cnt; simp only [live, List.length_cons] at *; omega
      · intro h0; simp only [live, List.length_cons] at h0; omega
    · right; rfl
  | relDec t =>
    simp only [step]
    split
    · rename_i hm
      have hp := length_erase_of hm
      have hl : 0 < live s := by unfold live; omega
      have ha := h.alive hl
      have hcnt := h.cnt
      have hr : (s.ref + 4294967295) % 4294967296 = s.ref - 1 := by omega
      left
      refine ⟨_, touch_ok ha.2.1, ⟨?_, ?_, ?_⟩, rfl, rfl⟩
      · simp only [live] at *; omega
      · intro h1
        refine ⟨ha.1, ha.2.1, ?_, ha.2.2.2⟩
        rw [if_neg]
        · exact ha.2.2.1
        · simp only [live] at *; omega
      · intro h0
        left
        have hz : (s.ref + 4294967295) % 4294967296 = 0 := by simp only [live] at *; omega
        dsimp only
        rw [if_pos hz, ha.2.2.1]
        exact ⟨rfl, ha.2.2.2, ha.1, ha.2.1⟩
    · right; rfl
  | relFreeData t =>
    simp only [step]
    split
    · rename_i hm
      have hp := length_erase_of hm
      have h0 : live s = 0 := by
        rcases Nat.eq_zero_or_pos (live s) with h0 | h0
        · exact h0
        · rw [(h.alive h0).2.2.1] at hm; cases hm
      rcases h.once h0 with ⟨a, b, c, d⟩ | ⟨a, _⟩ | ⟨a, _⟩
      · left
        refine ⟨_, (touch_ok d).trans (if_pos c), ⟨h.cnt, ?_, ?_⟩, rfl, rfl⟩
        · intro h1; simp only [live] at *; omega
        · intro _
          right; left
          refine ⟨?_, ?_, by dsimp only; omega, d⟩
          · exact List.length_eq_zero_iff.mp (by dsimp only; omega)
          · simp [b]
      · rw [a] at hm; cases hm
      · rw [a] at hm; cases hm
    · right; rfl
  | relFree t =>
    simp only [step]
    split
    · rename_i hm
      have hp := length_erase_of hm
      have h0 : live s = 0 := by
        rcases Nat.eq_zero_or_pos (live s) with h0 | h0
        · exact h0
        · rw [(h.alive h0).2.2.2] at hm; cases hm
      rcases h.once h0 with ⟨_, b, _⟩ | ⟨a, b, c, d⟩ | ⟨_, b, _⟩
      · rw [b] at hm; cases hm
      · left
        refine ⟨_, if_pos d, ⟨h.cnt, ?_, ?_⟩, rfl, rfl⟩
        · intro h1; simp only [live] at *; omega
        · intro _
          right; right
          refine ⟨a, ?_, c, by dsimp only; omega⟩
          exact List.length_eq_zero_iff.mp (by dsimp only; omega)
      · rw [b] at hm; cases hm
    · right; rfl

theorem few_step {s s' : St} {o : Op} {os : List Op} (h : step s o = .ok s') (hf : Few s (o :: os)) : Few s' os := by
  intro pre post s'' e hr
  refine hf (o :: pre) post s'' (by rw [e]; rfl) ?_
  simp only [run, h]; exact hr

theorem few_refused {s : St} {o : Op} {os : List Op} (h : step s o = .refused) (hf : Few s (o :: os)) : Few s os := by
  intro pre post s'' e hr
  refine hf (o :: pre) post s'' (by rw [e]; rfl) ?_
  simp only [run, h]; exact hr

theorem inv_run : ∀ (os : List Op) {s : St}, Inv s → Few s os →
    ∃ s', run s os = .ok s' ∧ Inv s' ∧ s'.data = s.data ∧ s'.len = s.len
  | [], s, h, _ => ⟨s, rfl, h, rfl, rfl⟩
  | o :: os, s, h, hf => by
    have h0 : live s < 0xfffffff := hf [] (o :: os) s rfl rfl
    rcases inv_step h h0 o with ⟨s1, h1, h2, h3, h4⟩ | h1
    · obtain ⟨s', a, b, c, d⟩ := inv_run os h2 (few_step h1 hf)
      exact ⟨s', by simp only [run, h1]; exact a, b, c.trans h3, d.trans h4⟩
    · obtain ⟨s', a, b, c, d⟩ := inv_run os h (few_refused h1 hf)
      exact ⟨s', by simp only [run, h1]; exact a, b, c, d⟩

/-- **C39** Whatever threads reference, hand over, read and release a shared string in whatever interleaving, as long
as fewer than 0xfffffff references exist at any time: no access hits freed memory, nothing is freed twice and no
assertion fails; while a reference exists nothing has been freed and the bytes and length are those the string was
created with; and neither block is freed before the last reference is subtracted. -/
theorem string_shared_safely (t : Nat) (d : Bytes) (n : Nat) (os : List Op)
    (hf : Few (convertRefsString t d n) os) :
    ∃ s, run (convertRefsString t d n) os = .ok s ∧ s.ref = s.holders.length + s.checked.length ∧
      s.data = d ∧ s.len = n % 4294967296 ∧ s.dataFreed ≤ 1 ∧ s.freed ≤ 1 ∧
      (s.holders ≠ [] ∨ s.checked ≠ [] → s.dataFreed = 0 ∧ s.freed = 0) := by
  obtain ⟨s, h1, h2, h3, h4⟩ := inv_run os (inv_init t d n) hf
  refine ⟨s, h1, h2.cnt, h3, h4, ?_, ?_, ?_⟩
  · rcases Nat.eq_zero_or_pos (live s) with h0 | h0
    · rcases h2.once h0 with h | h | h <;> omega
    · have := h2.alive h0; omega
  · rcases Nat.eq_zero_or_pos (live s) with h0 | h0
    · rcases h2.once h0 with h | h | h <;> omega
    · have := h2.alive h0; omega
  · intro h
    have : live s > 0 := by
      unfold live
      rcases h with h | h
      · have := List.length_pos_iff.mpr h; omega
      · have := List.length_pos_iff.mpr h; omega
    have := h2.alive this
    exact ⟨this.1, this.2.1⟩

/-- **C39** No leak: once every reference has been released and every release call has returned, both blocks have been
freed, each exactly once. -/
theorem string_freed_when_unreferenced (t : Nat) (d : Bytes) (n : Nat) (os : List Op)
    (hf : Few (convertRefsString t d n) os) (s : St) (hr : run (convertRefsString t d n) os = .ok s)
    (h1 : s.holders = []) (h2 : s.checked = []) (h3 : s.freeing = []) (h4 : s.freeing2 = []) :
    s.dataFreed = 1 ∧ s.freed = 1 := by
  obtain ⟨s', h, hi, _⟩ := inv_run os (inv_init t d n) hf
  obtain rfl : s = s' := by rw [hr] at h; injection h
  rcases hi.once (by simp [live, h1, h2]) with h | h | h
  · rw [h3] at h; simp at h
  · rw [h4] at h; simp at h
  · exact ⟨h.2.2.1, h.2.2.2⟩

/-- **C39** The last release frees: in every reachable state the thread whose decrement takes the last reference (no
other owned, no other release under way) goes on to free the blocks; any other decrement frees nothing. -/
theorem string_last_release_frees (t : Nat) (d : Bytes) (n : Nat) (os : List Op)
    (hf : Few (convertRefsString t d n) os) (s : St) (hr : run (convertRefsString t d n) os = .ok s) (u : Nat)
    (hu : u ∈ s.checked) :
    ∃ s', step s (.relDec u) = .ok s' ∧
      ((s.holders = [] ∧ s.checked = [u]) → s'.freeing = [u]) ∧
      (¬ (s.holders = [] ∧ s.checked = [u]) → s'.freeing = [] ∧ s'.freeing2 = [] ∧ s'.freed = 0) := by
  obtain ⟨s0, h, hi, _⟩ := inv_run os (inv_init t d n) hf
  obtain rfl : s = s0 := by rw [hr] at h; injection h
  have hlt : live s < 0xfffffff := hf os [] s (by simp) hr
  have hp := length_erase_of hu
  have hcnt := hi.cnt
  have ha := hi.alive (by unfold live; omega)
  refine ⟨_, (if_pos hu).trans (touch_ok ha.2.1), ?_, ?_⟩
  · rintro ⟨e1, e2⟩
    simp only [live, e1, e2, List.length_nil, List.length_singleton] at hcnt
    simp [hcnt, ha.2.2.1]
  · intro hn
    refine ⟨?_, ha.2.2.2, ha.2.1⟩
    dsimp only
    rw [if_neg]
    · exact ha.2.2.1
    · intro hz
      apply hn
      simp only [live] at hcnt hlt
      have e1 : s.holders.length = 0 := by omega
      have e2 : (s.checked.erase u) = [] := List.length_eq_zero_iff.mp (by omega)
      refine ⟨List.length_eq_zero_iff.mp e1, ?_⟩
      have : s.checked.length = 1 := by omega
      obtain ⟨x, hx⟩ := List.length_eq_one_iff.mp this
      rw [hx] at hu ⊢
      simp at hu; rw [hu]

/-! ## The contents -/

theorem strndup_strlen (str : Bytes) : (strndup str (strlen str)).length = strlen str := by
  induction str with
  | nil => rfl
  | cons c cs ih =>
    simp only [strlen]
    split
    · rfl
    · rename_i h; simp [strndup, h, ih]

theorem strndup_length_le (str : Bytes) (n : Nat) : (strndup str n).length ≤ n := by
  induction str generalizing n with
  | nil => cases n <;> simp [strndup]
  | cons c cs ih =>
    cases n with
    | zero => simp [strndup]
    | succ n =>
      simp only [strndup]
      split
      · simp
      · have := ih n; simp; omega

theorem strndup_eq_take (str : Bytes) : ∀ n, (0 : UInt8) ∉ str.take n → strndup str n = str.take n := by
  induction str with
  | nil => intro n _; cases n <;> simp [strndup]
  | cons c cs ih =>
    intro n h
    cases n with
    | zero => simp [strndup]
    | succ n =>
      simp only [List.take_succ_cons, List.mem_cons, not_or] at h ⊢
      simp only [strndup]
      rw [if_neg (fun e => h.1 e.symm), ih n h.2]

/-- **C39** A string made from a C string shorter than 4 GiB holds its bytes: `len` is the number of bytes `data`
points to, all of them before the NUL. -/
theorem string_from_contents (t : Nat) (str : Bytes) (h : strlen str < 4294967296) :
    (kstringFrom t str).data = str.take (strlen str) ∧
    (kstringFrom t str).len = (kstringFrom t str).data.length ∧ (kstringFrom t str).ref = 1 := by
  have hn : ∀ l : Bytes, (0 : UInt8) ∉ l.take (strlen l) := by
    intro l
    induction l with
    | nil => simp
    | cons c cs ih =>
      simp only [strlen]
      split
      · simp
      · rename_i hc
        simp only [List.take_succ_cons, List.mem_cons, not_or]
        exact ⟨fun e => hc e.symm, ih⟩
  refine ⟨strndup_eq_take str _ (hn str), ?_, rfl⟩
  simp only [kstringFrom, convertRefsString, strndup_strlen]
  omega

/-- **C39** A string made from a buffer of `len` bytes without a NUL, shorter than 4 GiB, holds exactly these bytes. -/
theorem string_from2_contents (t : Nat) (buf : Bytes) (h0 : (0 : UInt8) ∉ buf) (h : buf.length < 4294967296) :
    (kstringFrom2 t buf buf.length).data = buf ∧ (kstringFrom2 t buf buf.length).len = buf.length := by
  refine ⟨?_, ?_⟩
  · have := strndup_eq_take buf buf.length (by simpa using h0)
    simpa [kstringFrom2, convertRefsString] using this
  · simp only [kstringFrom2, convertRefsString]; omega

/-- **C39 (finding)** `kstring_from2` copies with `strndup`, which stops at a NUL, but records the length asked for:
for every buffer with a NUL inside, `len` promises more bytes than `data` holds (with the final NUL counted, a reader
that trusts `len` runs past the allocation unless the NUL is the last byte). -/
theorem string_from2_embedded_nul (t : Nat) (a b : Bytes) (c : UInt8) (h0 : (0 : UInt8) ∉ a)
    (h : (a ++ 0 :: c :: b).length < 4294967296) :
    let s := kstringFrom2 t (a ++ 0 :: c :: b) (a ++ 0 :: c :: b).length
    s.data = a ∧ s.data.length + 1 < s.len := by
  have key : ∀ (a : Bytes) (n : Nat), (0 : UInt8) ∉ a → a.length < n → strndup (a ++ 0 :: c :: b) n = a := by
    intro a
    induction a with
    | nil => intro n _ hn; cases n with
      | zero => simp at hn
      | succ n => simp [strndup]
    | cons x xs ih =>
      intro n hx hn
      simp only [List.mem_cons, not_or] at hx
      cases n with
      | zero => simp at hn
      | succ n =>
        simp only [List.cons_append, strndup]
        rw [if_neg (fun e => hx.1 e.symm), ih n hx.2 (by simpa using hn)]
  dsimp only [kstringFrom2, convertRefsString]
  rw [key a _ h0 (by simp), Nat.mod_eq_of_lt h]
  refine ⟨rfl, ?_⟩
  simp only [List.length_append, List.length_cons]; omega

/-- **C39 (finding)** A buffer of 4 GiB or more is recorded with its length modulo 2^32. -/
theorem string_from2_huge (t : Nat) (buf : Bytes) (n : Nat) (h : 4294967296 ≤ n) :
    (kstringFrom2 t buf n).len < n := by
  simp only [kstringFrom2, convertRefsString]; omega

/-- `n` more references taken by one thread. -/
theorem run_refs (t : Nat) (n : Nat) : ∀ (s : St), t ∈ s.holders → s.freed = 0 → s.ref + n < 4294967296 →
    ∀ os, ∃ s', run s (List.replicate n (.refs t) ++ os) = run s' os ∧ t ∈ s'.holders ∧ s'.freed = 0 ∧
      s'.ref = s.ref + n := by
  induction n with
  | zero => intro s h1 h2 _ os; exact ⟨s, rfl, h1, h2, rfl⟩
  | succ n ih =>
    intro s h1 h2 h3 os
    have e : step s (.refs t) = .ok { s with ref := (s.ref + 1) % 4294967296, holders := t :: s.holders } :=
      (if_pos h1).trans (touch_ok h2)
    obtain ⟨s', a, b, c, d⟩ := ih { s with ref := (s.ref + 1) % 4294967296, holders := t :: s.holders }
      (by simp) h2 (by dsimp only; omega) os
    refine ⟨s', ?_, b, c, ?_⟩
    · simp only [List.replicate_succ, List.cons_append, run, e]; exact a
    · dsimp only at d; omega

/-- **C39 (finding)** The bound on the number of references is needed: whoever legitimately takes 0xffffffe more
references has the next release fail its assertion and end the process, although nothing is wrong. -/
theorem string_many_references_abort (t : Nat) (d : Bytes) (n : Nat) :
    ∃ k os, os = List.replicate k (.refs t) ++ [.relCheck t] ∧ run (convertRefsString t d n) os = .abort := by
  refine ⟨268435454, _, rfl, ?_⟩
  obtain ⟨s', a, b, c, e⟩ := run_refs t 268435454 (convertRefsString t d n) (List.mem_singleton.mpr rfl) rfl
    (by simp only [convertRefsString]; omega) [.relCheck t]
  rw [a]
  have h : step s' (.relCheck t) = .abort := by
    refine (if_pos b).trans ((touch_ok c).trans (if_neg ?_))
    simp only [convertRefsString] at e; omega
  simp only [run, h]

/-! ## Concrete cases -/

/-- two threads, the releases overlapping; the second decrement frees -/
def demo : List Op :=
  [.refs 1, .give 1 2, .relCheck 2, .read 1, .relCheck 1, .relDec 1, .relDec 2, .relFreeData 2, .read 1, .relFree 2]

example : (match run (kstringFrom 1 [104, 105, 0, 7]) demo with
    | .ok s => (s.freed, s.dataFreed, s.data, s.holders) | _ => (9, 9, [], [])) = (1, 1, [104, 105], []) := by
  decide

theorem live_step {s s' : St} {o : Op} (h : step s o = .ok s') : live s' ≤ live s + 1 := by
  have ht : ∀ r, touch s r = .ok s' → r = .ok s' := by
    intro r h; unfold touch at h; split at h
    · exact h
    · cases h
  have hi : ∀ x y : St, Res.ok x = Res.ok y → x = y := by intro x y h; injection h
  cases o with
  | refs t =>
    simp only [step] at h
    split at h
    · rw [← hi _ _ (ht _ h)]; simp only [live, List.length_cons]; omega
    · cases h
  | give t u =>
    simp only [step] at h
    split at h
    · rename_i hm
      have := length_erase_of hm
      rw [← hi _ _ h]; simp only [live, List.length_cons]; omega
    · cases h
  | getRef t =>
    simp only [step] at h
    split at h
    · rw [← hi _ _ (ht _ h)]; omega
    · cases h
  | read t =>
    simp only [step] at h
    split at h
    · have h := ht _ h
      split at h
      · rw [← hi _ _ h]; omega
      · cases h
    · cases h
  | relCheck t =>
    simp only [step] at h
    split at h
    · rename_i hm
      have := length_erase_of hm
      have h := ht _ h
      split at h
      · rw [← hi _ _ h]; simp only [live, List.length_cons]; omega
      · cases h
    · cases h
  | relDec t =>
    simp only [step] at h
    split at h
    · rename_i hm
      have := length_erase_of hm
      rw [← hi _ _ (ht _ h)]; simp only [live]; omega
    · cases h
  | relFreeData t =>
    simp only [step] at h
    split at h
    · have h := ht _ h
      split at h
      · rw [← hi _ _ h]; simp only [live]; omega
      · cases h
    · cases h
  | relFree t =>
    simp only [step] at h
    split at h
    · split at h
      · rw [← hi _ _ h]; simp only [live]; omega
      · cases h
    · cases h

/-- Every schedule of fewer than 0xffffffe steps has few references, so the hypothesis of the theorems is met by all of
them (it only excludes clients that hold hundreds of millions of references at one time). -/
theorem few_of_short : ∀ (os : List Op) (s : St), live s + os.length < 0xfffffff → Few s os := by
  intro os s h pre post s' e hr
  have key : ∀ (pre : List Op) (s s' : St), run s pre = .ok s' → live s' ≤ live s + pre.length := by
    intro pre
    induction pre with
    | nil => intro s s' h; simp only [run] at h; injection h with h; subst h; simp
    | cons o os ih =>
      intro s s' h
      simp only [run] at h
      split at h
      · rename_i s1 h1
        have := ih _ _ h
        have := live_step h1
        simp only [List.length_cons]; omega
      · have := ih _ _ h
        simp only [List.length_cons]; omega
      · cases h
      · cases h
  have := key pre s s' hr
  rw [e] at h
  simp only [List.length_append] at h
  omega

example : Few (kstringFrom 1 [104, 105, 0]) [.refs 1, .give 1 2, .relCheck 2, .relDec 2] :=
  few_of_short _ _ (by decide)
example : (0 : UInt8) ∉ ([104, 105] : Bytes) := by decide

end Kasync.Str
