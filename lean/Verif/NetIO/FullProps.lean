import Verif.NetIO.Full

/-! # C34: the full transfer loops move exactly the requested bytes -/

namespace Kasync.NetIO

/-! ## Specification -/

/-- the bytes the environment is willing to move before its first refusal (a count of zero or less) -/
def offered (rs : List Int) : Int := (rs.takeWhile (fun r => decide (0 < r))).sum

/-! ## Helper lemmas -/

theorem offered_cons_pos {r : Int} {rs : List Int} (h : 0 < r) : offered (r :: rs) = r + offered rs := by
  simp [offered, List.takeWhile_cons, h]

theorem offered_cons_nonpos {r : Int} {rs : List Int} (h : r ≤ 0) : offered (r :: rs) = 0 := by
  simp [offered, List.takeWhile_cons, Int.not_lt.2 h]

theorem offered_nonneg (rs : List Int) : 0 ≤ offered rs := by
  induction rs with
  | nil => simp [offered]
  | cons r rs ih =>
    by_cases h : 0 < r
    · rw [offered_cons_pos h]; omega
    · rw [offered_cons_nonpos (by omega)]; omega

/-! ## Properties -/

/-- **C34.** `kfiber_net_write_full` puts exactly the first `min(len, offered)` bytes of the buffer on the wire, once and in order, leaves the number
of bytes not written in `*len`, and succeeds exactly if that is all of them. -/
theorem write_full_exact (rs : List Int) (buf : Buf) (len : Int) (h0 : 0 ≤ len) (hb : len ≤ buf.length) :
    (writeFull rs buf len).2.1 = len - min len (offered rs) ∧
    (writeFull rs buf len).2.2 = buf.take (min len (offered rs)).toNat ∧
    ((writeFull rs buf len).1 = true ↔ len ≤ offered rs) := by
  induction rs generalizing buf len with
  | nil =>
    unfold writeFull
    split
    · simp [offered]; omega
    · have : len = 0 := by omega
      subst this; simp [offered]
  | cons r rs ih =>
    unfold writeFull
    split
    · dsimp only
      split
      · simp only [granted] at *
        rw [offered_cons_nonpos (by omega)]
        simp; omega
      · simp only [granted] at *
        have hr : 0 < r := by omega
        have hg : 0 < min r len := by omega
        obtain ⟨h1, h2, h3⟩ := ih (buf.drop (min r len).toNat) (len - min r len) (by omega) (by simp; omega)
        rw [offered_cons_pos hr]
        have ho := offered_nonneg rs
        refine ⟨by rw [h1]; omega, ?_, by rw [h3]; omega⟩
        rw [h2]
        have e : (min len (r + offered rs)).toNat = (min r len).toNat + (min (len - min r len) (offered rs)).toNat := by omega
        rw [e, List.take_add]
    · have : len = 0 := by omega
      subst this
      have := offered_nonneg (r :: rs)
      simp; omega

/-- a request of zero or fewer bytes succeeds at once and changes nothing -/
theorem write_full_empty (rs : List Int) (buf : Buf) (len : Int) (h : len ≤ 0) : writeFull rs buf len = (true, len, []) := by
  cases rs <;> (unfold writeFull; rw [if_neg (by omega)])

/-- what the peer or the end of file allows -/
theorem min3 (len n o : Int) : min (min len n) o = min len (min n o) := by omega

/-- **C34.** `kfiber_net_read_full` fills the buffer with exactly the next `min(len, sent, offered)` bytes of the stream, leaves the rest of the buffer
and of the stream untouched, leaves the number of missing bytes in `*len`, and succeeds exactly if none is missing. -/
theorem read_full_exact (rs : List Int) (inc : List Byte) (buf : Buf) (len : Int) (h0 : 0 ≤ len) (hb : len ≤ buf.length) :
    let n := min len (min inc.length (offered rs))
    (readFull rs inc buf len).2.1 = len - n ∧
    (readFull rs inc buf len).2.2.1 = inc.take n.toNat ++ buf.drop n.toNat ∧
    (readFull rs inc buf len).2.2.2 = inc.drop n.toNat ∧
    ((readFull rs inc buf len).1 = true ↔ n = len) := by
  induction rs generalizing inc buf len with
  | nil =>
    unfold readFull
    have e : min len (min (inc.length : Int) (offered [])) = 0 := by simp [offered]; omega
    rw [e]
    split
    · simp; omega
    · simp; omega
  | cons r rs ih =>
    unfold readFull
    split
    · dsimp only
      split
      · simp only [granted] at *
        by_cases hr : r ≤ 0
        · rw [offered_cons_nonpos hr]
          have e : min len (min (inc.length : Int) 0) = 0 := by omega
          rw [e]; simp; omega
        · have := offered_nonneg (r :: rs)
          have e : min len (min (inc.length : Int) (offered (r :: rs))) = 0 := by omega
          rw [e]; simp; omega
      · simp only [granted] at *
        have hr : 0 < r := by omega
        generalize hg : min r (min len (inc.length : Int)) = g at *
        obtain ⟨h1, h2, h3, h4⟩ := ih (inc.drop g.toNat) (buf.drop g.toNat) (len - g) (by omega) (by simp; omega)
        rw [offered_cons_pos hr]
        have ho := offered_nonneg rs
        have hl : ((inc.drop g.toNat).length : Int) = inc.length - g := by simp; omega
        rw [hl] at h1 h2 h3 h4
        have hr2 : min len (min (inc.length : Int) (r + offered rs)) = g + min (len - g) (min (inc.length - g) (offered rs)) := by omega
        rw [hr2]
        generalize hm : min (len - g) (min ((inc.length : Int) - g) (offered rs)) = m at *
        have hm0 : 0 ≤ m := by omega
        have e : (g + m).toNat = g.toNat + m.toNat := by omega
        refine ⟨by rw [h1]; omega, ?_, ?_, by rw [h4]; omega⟩
        · rw [h2, e, List.take_add, List.drop_drop, List.append_assoc]
        · rw [h3, e, List.drop_drop]
    · have : len = 0 := by omega
      subst this
      have := offered_nonneg (r :: rs)
      have e : min 0 (min (inc.length : Int) (offered (r :: rs))) = 0 := by omega
      rw [e]; simp

theorem range_add (d : Nat → Byte) (o a b : Nat) : range d o a ++ range d (o + a) b = range d o (a + b) := by
  unfold range
  rw [List.range_add, List.map_append, List.map_map]
  congr 1
  refine List.map_congr_left fun i _ => ?_
  simp [Nat.add_assoc]

/-- **C34.** `kfiber_sendfile_full` sends exactly the next `min(len, left in file, offered)` bytes of the file and moves its offset by as many. -/
theorem sendfile_full_exact (rs : List Int) (f : File) (len : Int) (h0 : 0 ≤ len) (ho : f.offset ≤ f.size) :
    let n := min len (min ((f.size : Int) - f.offset) (offered rs))
    (sendfileFull rs f len).2.1 = len - n ∧
    (sendfileFull rs f len).2.2.1 = { f with offset := f.offset + n.toNat } ∧
    (sendfileFull rs f len).2.2.2 = range f.data f.offset n.toNat ∧
    ((sendfileFull rs f len).1 = true ↔ n = len) := by
  induction rs generalizing f len with
  | nil =>
    unfold sendfileFull
    have e : min len (min ((f.size : Int) - f.offset) (offered [])) = 0 := by simp [offered]; omega
    rw [e]
    split <;> (simp [range]; omega)
  | cons r rs ih =>
    unfold sendfileFull
    have hoff := offered_nonneg (r :: rs)
    split
    · dsimp only
      split
      · simp only [granted] at *
        have e : min len (min ((f.size : Int) - f.offset) (offered (r :: rs))) = 0 := by
          by_cases hr : r ≤ 0
          · rw [offered_cons_nonpos hr]; omega
          · omega
        rw [e]; simp [range]; omega
      · simp only [granted] at *
        have hr : 0 < r := by omega
        generalize hg : min r (min len ((f.size - f.offset : Nat) : Int)) = g at *
        obtain ⟨h1, h2, h3, h4⟩ := ih { f with offset := f.offset + g.toNat } (len - g) (by omega) (by dsimp only; omega)
        dsimp only at h1 h2 h3 h4
        rw [offered_cons_pos hr]
        have ho' := offered_nonneg rs
        have hr2 : min len (min ((f.size : Int) - f.offset) (r + offered rs)) =
          g + min (len - g) (min ((f.size : Int) - ((f.offset + g.toNat : Nat) : Int)) (offered rs)) := by omega
        rw [hr2]
        generalize hm : min (len - g) (min ((f.size : Int) - ((f.offset + g.toNat : Nat) : Int)) (offered rs)) = m at *
        have hm0 : 0 ≤ m := by omega
        have e : (g + m).toNat = g.toNat + m.toNat := by omega
        refine ⟨by rw [h1]; omega, ?_, ?_, by rw [h4]; omega⟩
        · rw [h2, e]; simp [Nat.add_assoc]
        · rw [h3, e, range_add]
    · have : len = 0 := by omega
      subst this
      have e : min 0 (min ((f.size : Int) - f.offset) (offered (r :: rs))) = 0 := by omega
      rw [e]; simp [range]

/-- **C34.** `kfiber_file_read_full` fills the buffer with exactly the next `min(len, left in file, offered)` bytes of the file. -/
theorem file_read_full_exact (rs : List Int) (f : File) (buf : Buf) (len : Int) (h0 : 0 ≤ len) (ho : f.offset ≤ f.size) (hb : len ≤ buf.length) :
    let n := min len (min ((f.size : Int) - f.offset) (offered rs))
    (fileReadFull rs f buf len).2.1 = len - n ∧
    (fileReadFull rs f buf len).2.2.1 = { f with offset := f.offset + n.toNat } ∧
    (fileReadFull rs f buf len).2.2.2 = range f.data f.offset n.toNat ++ buf.drop n.toNat ∧
    ((fileReadFull rs f buf len).1 = true ↔ n = len) := by
  induction rs generalizing f buf len with
  | nil =>
    unfold fileReadFull
    have e : min len (min ((f.size : Int) - f.offset) (offered [])) = 0 := by simp [offered]; omega
    rw [e]
    split <;> (simp [range]; omega)
  | cons r rs ih =>
    unfold fileReadFull
    have hoff := offered_nonneg (r :: rs)
    split
    · dsimp only
      split
      · simp only [granted] at *
        have e : min len (min ((f.size : Int) - f.offset) (offered (r :: rs))) = 0 := by
          by_cases hr : r ≤ 0
          · rw [offered_cons_nonpos hr]; omega
          · omega
        rw [e]; simp [range]; omega
      · simp only [granted] at *
        have hr : 0 < r := by omega
        generalize hg : min r (min len ((f.size - f.offset : Nat) : Int)) = g at *
        obtain ⟨h1, h2, h3, h4⟩ := ih { f with offset := f.offset + g.toNat } (buf.drop g.toNat) (len - g) (by omega) (by dsimp only; omega) (by simp; omega)
        dsimp only at h1 h2 h3 h4
        rw [offered_cons_pos hr]
        have ho' := offered_nonneg rs
        have hr2 : min len (min ((f.size : Int) - f.offset) (r + offered rs)) =
          g + min (len - g) (min ((f.size : Int) - ((f.offset + g.toNat : Nat) : Int)) (offered rs)) := by omega
        rw [hr2]
        generalize hm : min (len - g) (min ((f.size : Int) - ((f.offset + g.toNat : Nat) : Int)) (offered rs)) = m at *
        have hm0 : 0 ≤ m := by omega
        have e : (g + m).toNat = g.toNat + m.toNat := by omega
        refine ⟨by rw [h1]; omega, ?_, ?_, by rw [h4]; omega⟩
        · rw [h2, e]; simp [Nat.add_assoc]
        · rw [h3, e, ← range_add, List.drop_drop, List.append_assoc]
    · have : len = 0 := by omega
      subst this
      have e : min 0 (min ((f.size : Int) - f.offset) (offered (r :: rs))) = 0 := by omega
      rw [e]; simp [range]

/-- **C34.** `kfiber_file_write_full` writes exactly the first `min(len, offered)` bytes of the buffer at the file's offset, changes no other byte of the
file and moves the offset by as many. -/
theorem file_write_full_exact (rs : List Int) (f : File) (buf : Buf) (len : Int) (h0 : 0 ≤ len) (hb : len ≤ buf.length) :
    let n := min len (offered rs)
    (fileWriteFull rs f buf len).2.1 = len - n ∧
    (∀ i, (fileWriteFull rs f buf len).2.2.data i =
      if f.offset ≤ i ∧ i < f.offset + n.toNat then buf.getD (i - f.offset) 0 else f.data i) ∧
    (fileWriteFull rs f buf len).2.2.offset = f.offset + n.toNat ∧
    (fileWriteFull rs f buf len).2.2.size = (if n = 0 then f.size else max f.size (f.offset + n.toNat)) ∧
    ((fileWriteFull rs f buf len).1 = true ↔ n = len) := by
  induction rs generalizing f buf len with
  | nil =>
    unfold fileWriteFull
    have e : min len (offered []) = 0 := by simp [offered]; omega
    rw [e]
    split <;> (simp; grind)
  | cons r rs ih =>
    unfold fileWriteFull
    have hoff := offered_nonneg (r :: rs)
    split
    · dsimp only
      split
      · simp only [granted] at *
        have e : min len (offered (r :: rs)) = 0 := by
          rw [offered_cons_nonpos (by omega)]; omega
        rw [e]; simp; grind
      · simp only [granted] at *
        have hr : 0 < r := by omega
        generalize hg : min r len = g at *
        have htl : (buf.take g.toNat).length = g.toNat := by simp; omega
        obtain ⟨h1, h2, h3, h4, h5⟩ := ih { pwrite f (buf.take g.toNat) with offset := f.offset + g.toNat } (buf.drop g.toNat) (len - g) (by omega) (by simp; omega)
        dsimp only at h1 h2 h3 h4 h5
        rw [offered_cons_pos hr]
        have ho' := offered_nonneg rs
        have hr2 : min len (r + offered rs) = g + min (len - g) (offered rs) := by omega
        rw [hr2]
        generalize hm : min (len - g) (offered rs) = m at *
        have hm0 : 0 ≤ m := by omega
        have e : (g + m).toNat = g.toNat + m.toNat := by omega
        refine ⟨by rw [h1]; omega, ?_, by rw [h3]; omega, ?_, by rw [h5]; omega⟩
        · intro i
          rw [h2]
          simp only [pwrite, htl, List.getD_eq_getElem?_getD, List.getElem?_drop, List.getElem?_take]
          grind
        · rw [h4]
          simp only [pwrite, htl]
          rw [if_neg (by omega : ¬ g + m = 0)]
          split <;> omega
    · have : len = 0 := by omega
      subst this
      have e : min 0 (offered (r :: rs)) = 0 := by omega
      rw [e]; simp; grind

/-- **C34.** The cross-selector variant behaves as `kfiber_file_write_full`, or fails without any effect if no fiber can be created. -/
theorem file_safe_write_full_exact (same createOk : Bool) (rs : List Int) (f : File) (buf : Buf) (len : Int) :
    fileSafeWriteFull same createOk rs f buf len = if same = true ∨ createOk = true then fileWriteFull rs f buf len else (false, len, f) := by
  unfold fileSafeWriteFull
  cases same <;> cases createOk <;> simp
  rcases h : fileWriteFull rs f buf len with ⟨ok, l, f'⟩
  cases ok <;> simp

/-! ### `kfiber_net_writev_full` -/

theorem toInt32_small {n : Nat} (h : n < 2 ^ 31) : toInt32 n = n := by
  unfold toInt32; omega

theorem skipVec_spec (bufs : List Buf) (bc got : Int) (hs : ∀ v ∈ bufs, v.length < 2 ^ 31) (hg : 0 ≤ got) (hgl : got ≤ (bytes bufs).length) :
    ∃ (k : Nat) (rest : List Buf), skipVec bufs bc got = some (rest, bc - k) ∧ rest.length + k = bufs.length ∧ bytes rest = (bytes bufs).drop got.toNat ∧
      (∀ v ∈ rest, v.length < 2 ^ 31) ∧ (rest ≠ [] → rest.getLast? = bufs.getLast? ∨ (rest.length = 1 ∧ (bytes rest).length ≠ 0)) := by
  induction bufs generalizing bc got with
  | nil =>
    have : got = 0 := by simp [bytes] at hgl; omega
    subst this
    exact ⟨0, [], by simp [skipVec], rfl, rfl, by simp, by simp⟩
  | cons v vs ih =>
    unfold skipVec
    have hv := hs v (by simp)
    split
    · dsimp only
      rw [toInt32_small hv]
      split
      · rename_i hlt
        refine ⟨0, v.drop got.toNat :: vs, by simp, rfl, ?_, ?_, ?_⟩
        · simp only [bytes, List.flatten_cons]
          rw [List.drop_append_of_le_length (by omega)]
        · intro w hw
          rcases List.mem_cons.1 hw with rfl | hw
          · simp; omega
          · exact hs w (by simp [hw])
        · intro _
          cases vs with
          | nil => right; simp [bytes]; omega
          | cons a as => left; simp
      · rename_i hge
        have hlen : ((bytes (v :: vs)).length : Int) = v.length + (bytes vs).length := by simp [bytes]
        obtain ⟨k, rest, h1, h2, h3, h4, h5⟩ := ih (bc - 1) (got - v.length) (fun w hw => hs w (by simp [hw])) (by omega) (by omega)
        refine ⟨k + 1, rest, by rw [h1]; congr 2; omega, by simp; omega, ?_, h4, ?_⟩
        · rw [h3]
          simp only [bytes, List.flatten_cons]
          have e : got.toNat = v.length + (got - v.length).toNat := by omega
          rw [e, List.drop_append]
          simp
        · intro hne
          rcases h5 hne with h | h
          · left
            rw [h]
            have : vs ≠ [] := by
              rintro rfl
              rw [List.length_nil] at h2
              exact hne (List.eq_nil_of_length_eq_zero (by omega))
            rw [List.getLast?_cons]
            cases hh : vs.getLast? with
            | none => exact absurd (List.getLast?_eq_none_iff.1 hh) this
            | some x => rfl
          · exact .inr h
    · have : got = 0 := by omega
      subst this
      exact ⟨0, v :: vs, by simp, rfl, by simp, hs, fun _ => .inl rfl⟩

/-- **C34.** `kfiber_net_writev_full` (all of whose vectors are smaller than 2 GB) never reads past the array, returns the number of bytes written,
puts exactly that prefix of the gathered bytes on the wire, leaves exactly the vectors with the remaining bytes, their number in `*bc`,
and writes `min(total, offered)` bytes. -/
theorem writev_full_exact (rs : List Int) (bufs : List Buf) (hs : ∀ v ∈ bufs, v.length < 2 ^ 31) :
    ∃ (n : Nat) (rest : List Buf), writevFull rs bufs bufs.length = some (n, (rest.length : Int), rest, (bytes bufs).take n) ∧
      (n : Int) = min ((bytes bufs).length : Int) (offered rs) ∧ bytes rest = (bytes bufs).drop n ∧
      (n = (bytes bufs).length → bufs.getLast? ≠ some [] → 0 < n → rest = []) := by
  induction rs generalizing bufs with
  | nil =>
    refine ⟨0, bufs, by simp [writevFull], by simp [offered]; omega, by simp, by omega⟩
  | cons r rs ih =>
    unfold writevFull
    split
    · rw [Int.toNat_natCast, List.take_length]
      dsimp only
      split
      · simp only [granted] at *
        refine ⟨0, bufs, by simp, ?_, by simp, by omega⟩
        have := offered_nonneg (r :: rs)
        by_cases hr : r ≤ 0
        · rw [offered_cons_nonpos hr]; omega
        · omega
      · simp only [granted] at *
        have hr : 0 < r := by omega
        generalize hg : min r ((bytes bufs).length : Int) = g at *
        obtain ⟨k, rest, h1, h2, h3, h4, h5⟩ := skipVec_spec bufs bufs.length g hs (by omega) (by omega)
        rw [h1]
        have ek : (bufs.length : Int) - k = rest.length := by omega
        rw [ek]
        obtain ⟨m, rest', g1, g2, g3, g4⟩ := ih rest h4
        dsimp only
        rw [g1]
        dsimp only
        have hl : ((bytes rest).length : Int) = (bytes bufs).length - g := by rw [h3]; simp; omega
        have ho := offered_nonneg rs
        refine ⟨g.toNat + m, rest', ?_, ?_, ?_, ?_⟩
        · rw [h3, List.take_add]
        · rw [offered_cons_pos hr]; omega
        · rw [g3, h3, List.drop_drop]
        · intro hn hlast _
          by_cases hrest : rest = []
          · subst hrest
            have : rest' = [] := by
              have : writevFull rs [] (([] : List Buf).length : Int) = some (0, 0, [], []) := by cases rs <;> simp [writevFull]
              rw [this] at g1
              simp at g1
              exact g1.2.2.1
            exact this
          · rcases h5 hrest with h | h
            · have hne : rest.getLast? ≠ some [] := h ▸ hlast
              have hpos : 0 < (bytes rest).length := by
                obtain ⟨x, hx⟩ : ∃ x, rest.getLast? = some x := by
                  cases hh : rest.getLast? with
                  | none => exact absurd (List.getLast?_eq_none_iff.1 hh) hrest
                  | some x => exact ⟨x, rfl⟩
                have hxm : x ∈ rest := List.mem_of_getLast? hx
                have hx0 : x ≠ [] := fun h => hne (by rw [hx, h])
                have : x.length ≤ (bytes rest).length := (List.sublist_flatten_of_mem hxm).length_le
                have : 0 < x.length := List.length_pos_iff.2 hx0
                omega
              refine g4 (by omega) hne (by omega)
            · have hm0 : 0 < m := by omega
              refine g4 (by omega) ?_ hm0
              intro hh
              have hxm : ([] : Buf) ∈ rest := List.mem_of_getLast? hh
              obtain ⟨x, hx⟩ := List.length_eq_one_iff.1 h.1
              subst hx
              simp at hxm
              subst hxm
              exact h.2 (by simp [bytes])
    · have hb : bufs = [] := List.eq_nil_of_length_eq_zero (by omega)
      subst hb
      have := offered_nonneg (r :: rs)
      refine ⟨0, [], by simp [bytes], by simp [bytes]; omega, rfl, by simp⟩

/-! ## Non-vacuity and findings -/

example : writeFull [2, 1, 5] [1, 2, 3, 4, 5] 4 = (true, 0, [1, 2, 3, 4]) := by decide
example : writeFull [2, 0, 5] [1, 2, 3, 4, 5] 4 = (false, 2, [1, 2]) := by decide
example : readFull [2, 9] [7, 8, 9] [0, 0, 0, 0] 4 = (false, 1, [7, 8, 9, 0], []) := by decide
example : writevFull [2, 1, 9] [[1], [2, 3, 4], [], [5]] 4 = some (5, 0, [], [1, 2, 3, 4, 5]) := by decide
example : writevFull [2, -1, 9] [[1], [2, 3, 4], [], [5]] 4 = some (2, 3, [[3, 4], [], [5]], [1, 2]) := by decide

/-- **Finding (C34).** The documentation says "if all complete bc will be 0"; with an empty last vector all bytes are written but `*bc` stays positive, so
the caller takes the write for failed. -/
theorem writev_full_empty_tail : writevFull [3, 3] [[1, 2, 3], []] 2 = some (3, 1, [[]], [1, 2, 3]) := by decide

/-- **Finding (C34).** A vector of 2 GB or more is skipped as a whole after a short write of `g` bytes: the bytes after the first `g` of it are never
written, and the loop then reads past the end of the array. -/
theorem writev_full_large_vector (v : Buf) (h : (v.length : Int) = 2 ^ 31) (g : Int) (hg : 0 < g) : skipVec [v] 1 g = none := by
  unfold skipVec
  rw [if_pos hg]
  have e : toInt32 (v.length : Int) = -2 ^ 31 := by unfold toInt32; rw [h]; decide
  dsimp only
  rw [e, if_neg (by omega)]
  unfold skipVec
  rw [if_pos (by omega)]

/-- **C34.** `kfiber_file_safe_read` returns what one read of the file gives, called from a fiber or from elsewhere: never more than was asked for and never
more than the file has from its position on; all of it if the system gives that much. -/
theorem file_safe_read (same createOk : Bool) (r : Int) (f : File) (len : Int) (hc : same = true ∨ createOk = true) (hl : 0 ≤ len) (ho : f.offset ≤ f.size) :
    fileSafeRead same createOk r f len ≤ len ∧ f.offset + fileSafeRead same createOk r f len ≤ f.size ∧ fileSafeRead same createOk r f len ≤ r ∧
    (len ≤ r → f.offset + len ≤ f.size → fileSafeRead same createOk r f len = len) ∧
    ((f.size : Int) ≤ r → (f.size : Int) ≤ f.offset + len → f.offset + fileSafeRead same createOk r f len = f.size) := by
  have e : fileSafeRead same createOk r f len = min r (min len ((f.size - f.offset : Nat) : Int)) := by
    unfold fileSafeRead fileRead granted
    rcases hc with h | h <;> simp [h]
  rw [e]
  refine ⟨by omega, by omega, by omega, fun _ _ => by omega, fun _ _ => by omega⟩

example : fileSafeRead false true 100 { data := fun i => i, size := 10, offset := 7 } 5 = 3 := by decide

/-- **Finding (C34).** `kfiber_file_safe_read` reports 0, as for the end of the file, when it could not create its fiber. -/
theorem file_safe_read_failure_is_eof (r : Int) (f : File) (len : Int) : fileSafeRead false false r f len = 0 := rfl

end Kasync.NetIO
