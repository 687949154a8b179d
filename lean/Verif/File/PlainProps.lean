import Verif.File.Plain

/-!
# Plain file access: what is read and written where (C68)

The statements speak of the bytes of a file (`text`), the results of the calls, and the descriptors.
-/

namespace Kasync.Plain
open Kasync.Open (Mode Handle Node sysOpen kfopen test oTrunc kfNofollow)

/-- The bytes of file `i`. -/
def text (s : St) (i : Nat) : List Nat := (s.ino i).data

/-- The path is the file, or a link to it. -/
def leads (s : St) (p i : Nat) : Prop := s.names p = .file i ∨ s.names p = .link i

/-! ## Helpers -/

theorem upd_self {α : Type} (f : Nat → α) (i : Nat) (v : α) : upd f i v i = v := by simp [upd]
theorem upd_ne {α : Type} (f : Nat → α) {i j : Nat} (v : α) (h : j ≠ i) : upd f i v j = f j := by simp [upd, h]
theorem upd_upd {α : Type} (f : Nat → α) (i : Nat) (v w : α) : upd (upd f i v) i w = upd f i w := by
  funext j; unfold upd; split <;> rfl
theorem upd_id {α : Type} (f : Nat → α) (i : Nat) (v : α) (h : f i = v) : upd f i v = f := by
  funext j; unfold upd; split
  · subst_vars; rfl
  · rfl

theorem splice_length (d : List Nat) (pos : Nat) (bs : List Nat) :
    (splice d pos bs).length = if bs = [] then d.length else max d.length (pos + bs.length) := by
  unfold splice
  split
  · rfl
  · simp only [List.length_append, List.length_take, List.length_replicate, List.length_drop]; omega

theorem splice_get (d : List Nat) (pos : Nat) (bs : List Nat) (j : Nat) (hb : bs ≠ []) :
    (splice d pos bs)[j]? =
      if j < pos then (if j < d.length then d[j]? else some 0) else if j < pos + bs.length then bs[j - pos]? else d[j]? := by
  unfold splice
  rw [if_neg hb]
  have hl : ((d ++ List.replicate (pos - d.length) 0).take pos).length = pos := by
    simp only [List.length_append, List.length_take, List.length_replicate]; omega
  rw [List.append_assoc, List.getElem?_append, hl]
  by_cases h : j < pos
  · rw [if_pos h, if_pos h, List.getElem?_take, if_pos h, List.getElem?_append]
    by_cases h2 : j < d.length
    · rw [if_pos h2, if_pos h2]
    · rw [if_neg h2, if_neg h2, List.getElem?_replicate, if_pos (by omega)]
  · rw [if_neg h, if_neg h, List.getElem?_append]
    by_cases h2 : j < pos + bs.length
    · rw [if_pos h2, if_pos (by omega)]
    · rw [if_neg h2, if_neg (by omega), List.getElem?_drop, show pos + bs.length + (j - pos - bs.length) = j by omega]

theorem splice_end (d bs : List Nat) : splice d d.length bs = d ++ bs := by
  unfold splice
  split
  · subst_vars; simp
  · simp

/-- What one read does. -/
theorem read_some {s : St} {n len : Nat} {a : Ans} {s1 : St} {bs : List Nat} (h : kfread s n len a = (s1, some bs)) :
    ∃ f k, s.fds n = some f ∧ f.h.canRead = true ∧ a = .got k ∧ bs = ((text s f.ino).drop f.off).take (min len (k + 1)) ∧
      s1 = { s with fds := upd s.fds n (some { f with off := f.off + bs.length }) } := by
  unfold kfread at h
  split at h
  · rename_i f k hf
    split at h
    · rename_i hr
      simp only [Prod.mk.injEq, Option.some.injEq] at h
      exact ⟨f, k, hf, hr, rfl, h.2.symm, by rw [← h.1, h.2]⟩
    · simp at h
  · simp at h

theorem read_none {s : St} {n len : Nat} {a : Ans} {s1 : St} (h : kfread s n len a = (s1, none)) : s1 = s := by
  unfold kfread at h
  split at h
  · split at h <;> simp at h
    exact h.symm
  · simp at h; exact h.symm

/-! ## Reading -/

/-- **C68.** One read gives the bytes at the descriptor's offset, no more than asked for, moves the offset by what it gave, and changes nothing else; it gives nothing
only at the end of the file (or if nothing was asked for). -/
theorem read_exact {s : St} {n len : Nat} {a : Ans} {bs : List Nat} (h : (kfread s n len a).2 = some bs) :
    ∃ f, s.fds n = some f ∧ f.h.canRead = true ∧ bs.length ≤ len ∧ f.off + bs.length ≤ max f.off (text s f.ino).length ∧ (∀ j, j < bs.length → bs[j]? = (text s f.ino)[f.off + j]?) ∧
      (kfread s n len a).1 = { s with fds := upd s.fds n (some { f with off := f.off + bs.length }) } ∧
      (bs = [] → len = 0 ∨ (text s f.ino).length ≤ f.off) := by
  obtain ⟨f, k, hf, hcr, _, hb, hs⟩ := read_some (s1 := (kfread s n len a).1) (bs := bs) (by rw [← h])
  refine ⟨f, hf, hcr, ?_, ?_, ?_, hs, ?_⟩
  · rw [hb, List.length_take]; omega
  · rw [hb, List.length_take, List.length_drop]; omega
  · intro j hj
    rw [hb, List.length_take] at hj
    rw [hb, List.getElem?_take, if_pos (by omega), List.getElem?_drop]
  · intro he
    have : bs.length = 0 := by rw [he]; rfl
    rw [hb, List.length_take, List.length_drop] at this
    omega

theorem store_get (mem : Nat → Nat) (p : Nat) (bs : List Nat) (j : Nat) (b : Nat) (h : bs[j]? = some b) : store mem p bs (p + j) = b := by
  unfold store; rw [if_pos (by omega), show p + j - p = j by omega, h]; rfl

theorem store_out (mem : Nat → Nat) (p : Nat) (bs : List Nat) (q : Nat) (h : q < p ∨ p + bs.length ≤ q) : store mem p bs q = mem q := by
  unfold store
  split
  · rw [List.getElem?_eq_none (by omega)]; rfl
  · rfl

/-- **C68.** `kfread_all`: it stores the bytes of the file from the descriptor's offset on, one after the other from `buf` on, moves the offset by as much, and changes nothing
else.  True means that all `len` bytes are there; false means that fewer are, and then the file ends there, or the kernel refused a read, or the descriptor cannot be read. -/
theorem read_all_exact (s : St) (n buf : Nat) (len : Int) (mem : Nat → Nat) (as : List Ans) (f : Fd) (hf : s.fds n = some f) :
    let r := kfreadAll s n buf len mem as
    ∃ m, m ≤ len.toNat ∧ (r.2.2 = true ↔ m = len.toNat) ∧
      (∀ j, j < m → (text s f.ino)[f.off + j]? = some (r.2.1 (buf + j))) ∧
      (∀ q, q < buf ∨ buf + m ≤ q → r.2.1 q = mem q) ∧
      r.1 = { s with fds := upd s.fds n (some { f with off := f.off + m }) } ∧
      (r.2.2 = false → (text s f.ino).length ≤ f.off + m ∨ Ans.err ∈ as ∨ f.h.canRead = false) := by
  induction s, buf, len, mem, as using kfreadAll.induct (n := n) generalizing f with
  | case1 s buf len mem as hlen s1 hr =>
    have h1 := read_none hr
    subst h1
    rw [kfreadAll, if_pos hlen, hr]
    refine ⟨0, by omega, by simp; omega, fun j h => by omega, fun _ _ => rfl, ?_, fun _ => ?_⟩
    · show s1 = _
      rw [show upd s1.fds n (some { f with off := f.off + 0 }) = s1.fds from upd_id _ _ _ hf]
    · right
      unfold kfread at hr
      rw [hf] at hr
      cases as with
      | nil =>
        simp only [List.headD_nil] at hr
        split at hr
        · simp at hr
        · rename_i hc; right; simpa using hc
      | cons a as =>
        simp only [List.headD_cons] at hr
        cases a with
        | err => left; simp
        | got k =>
          simp only at hr
          split at hr
          · simp at hr
          · rename_i hc; right; simpa using hc
  | case2 s buf len mem as hlen s1 hr =>
    obtain ⟨f', k, hf', hcr, ha, hb, hs⟩ := read_some hr
    rw [hf] at hf'
    cases hf'
    rw [kfreadAll, if_pos hlen, hr]
    simp only [if_true]
    refine ⟨0, by omega, by simp; omega, fun j h => by omega, fun _ _ => trivial, by rw [hs]; rfl, fun _ => ?_⟩
    left
    have hl : ([] : List Nat).length = _ := congrArg List.length hb
    rw [List.length_take, List.length_drop, List.length_nil] at hl
    omega
  | case3 s buf len mem as hlen s1 bs hr hne ih =>
    obtain ⟨f', k, hf', hcr, ha, hb, hs⟩ := read_some hr
    rw [hf] at hf'
    cases hf'
    have hpos : 0 < bs.length := by cases bs with
      | nil => exact absurd rfl hne
      | cons _ _ => simp
    have hle : bs.length ≤ len.toNat := by rw [hb, List.length_take]; omega
    have hs1 : s1.fds n = some { f with off := f.off + bs.length } := by rw [hs]; exact upd_self ..
    obtain ⟨m, h1, h2, h3, h4, h5, h6⟩ := ih { f with off := f.off + bs.length } hs1
    have ht : text s1 f.ino = text s f.ino := by rw [hs]; rfl
    have hto : (len - (bs.length : Int)).toNat = len.toNat - bs.length := by omega
    rw [hto] at h1 h2
    rw [kfreadAll, if_pos hlen, hr]
    simp only [if_neg hne]
    refine ⟨bs.length + m, by omega, ?_, ?_, ?_, ?_, ?_⟩
    · rw [h2]; omega
    · intro j hj
      by_cases hjb : j < bs.length
      · rw [h4 (buf + j) (Or.inl (by omega))]
        have e : bs[j]? = (text s f.ino)[f.off + j]? := by
          rw [hb, List.length_take] at hjb
          rw [hb, List.getElem?_take, if_pos (by omega), List.getElem?_drop]
        have e2 : bs[j]? = some bs[j] := List.getElem?_eq_getElem hjb
        rw [store_get mem buf bs j bs[j] e2, ← e, e2]
      · have := h3 (j - bs.length) (by omega)
        simp only [ht] at this
        rw [show f.off + bs.length + (j - bs.length) = f.off + j by omega, show buf + bs.length + (j - bs.length) = buf + j by omega] at this
        exact this
    · intro q hq
      rw [h4 q (by omega), store_out _ _ _ _ (by omega)]
    · rw [h5, hs]
      simp only [upd_upd, Nat.add_assoc]
    · intro hfa
      rcases h6 hfa with h | h | h
      · left; simp only [ht] at h; omega
      · right; left; exact List.mem_of_mem_tail h
      · right; right; exact h
  | case4 s buf len mem as hlen =>
    rw [kfreadAll, if_neg hlen]
    refine ⟨0, by omega, by simp; omega, fun j h => by omega, fun _ _ => rfl, ?_, by simp⟩
    show s = _
    rw [show upd s.fds n (some { f with off := f.off + 0 }) = s.fds from upd_id _ _ _ hf]

/-- **C68.** If the kernel refuses nothing and the file has the bytes, `kfread_all` reads them all, however few bytes each read gives. -/
theorem read_all_complete (s : St) (n buf : Nat) (len : Int) (mem : Nat → Nat) (as : List Ans) (f : Fd) (hf : s.fds n = some f) (hr : f.h.canRead = true)
    (ha : Ans.err ∉ as) (hl : f.off + len.toNat ≤ (text s f.ino).length) : (kfreadAll s n buf len mem as).2.2 = true := by
  obtain ⟨m, h1, h2, h3, h4, h5, h6⟩ := read_all_exact s n buf len mem as f hf
  cases hb : (kfreadAll s n buf len mem as).2.2 with
  | true => rfl
  | false =>
    rcases h6 hb with h | h | h
    · have : m = len.toNat := by omega
      rw [← h2, hb] at this; exact this
    · exact absurd h ha
    · rw [hr] at h; cases h

/-! ## Writing -/

/-- **C68.** A write puts a beginning of the bytes given (at least one of them) at the descriptor's offset, or at the end of the file if it was opened for appending; a gap before it reads as
zeros; the file becomes longer exactly as far as needed; other files and other descriptors stay as they are. -/
theorem write_exact {s : St} {n : Nat} {bs : List Nat} {a : Ans} {now : Int} {k : Nat} (h : (kfwrite s n bs a now).2 = some k) :
    ∃ f, s.fds n = some f ∧ f.h.canWrite = true ∧ k ≤ bs.length ∧ (k = 0 → bs = []) ∧
      let pos := if f.h.append then (text s f.ino).length else f.off
      let s' := (kfwrite s n bs a now).1
      (text s' f.ino).length = (if bs = [] then (text s f.ino).length else max (text s f.ino).length (pos + k)) ∧
      (∀ j, j < k → (text s' f.ino)[pos + j]? = bs[j]?) ∧
      (∀ j, j < (text s f.ino).length → j < pos ∨ pos + k ≤ j → (text s' f.ino)[j]? = (text s f.ino)[j]?) ∧
      (bs ≠ [] → ∀ j, (text s f.ino).length ≤ j → j < pos → (text s' f.ino)[j]? = some 0) ∧
      (bs ≠ [] → kftime s' n = now) ∧
      s'.fds = upd s.fds n (some { f with off := pos + k }) ∧ s'.names = s.names ∧ s'.next = s.next ∧ (∀ i, i ≠ f.ino → s'.ino i = s.ino i) := by
  unfold kfwrite at h
  split at h
  · rename_i f q hf
    split at h
    · rename_i hw
      simp only [Option.some.injEq, List.length_take] at h
      have hpl : (bs.take (q + 1)).length = k := by rw [List.length_take]; exact h
      have hpe : bs.take (q + 1) = [] ↔ bs = [] := by cases bs <;> simp
      have e : kfwrite s n bs (.got q) now =
          ({ s with ino := upd s.ino f.ino { data := splice (s.ino f.ino).data (if f.h.append then (s.ino f.ino).data.length else f.off) (bs.take (q + 1)),
                                             mtime := if bs.take (q + 1) = [] then (s.ino f.ino).mtime else now },
                    fds := upd s.fds n (some { f with off := (if f.h.append then (s.ino f.ino).data.length else f.off) + (bs.take (q + 1)).length }) },
            some (bs.take (q + 1)).length) := by
        unfold kfwrite; rw [hf]; simp only [hw, if_true]
      refine ⟨f, hf, hw, by omega, ?_, ?_⟩
      · intro hk
        have : (bs.take (q + 1)).length = 0 := by rw [hpl, hk]
        exact hpe.mp (List.eq_nil_of_length_eq_zero this)
      · rw [e]
        simp only [text, upd_self, hpl]
        refine ⟨?_, ?_, ?_, ?_, ?_, trivial, trivial, trivial, fun i hi => upd_ne _ _ hi⟩
        · rw [splice_length, hpl]
          by_cases hb : bs = []
          · rw [if_pos (hpe.mpr hb), if_pos hb]
          · rw [if_neg (fun c => hb (hpe.mp c)), if_neg hb]
        · intro j hj
          have hb : bs ≠ [] := by intro c; subst c; simp at h; omega
          rw [splice_get _ _ _ _ (fun c => hb (hpe.mp c)), if_neg (by omega), hpl, if_pos (by omega),
            show (if f.h.append then (s.ino f.ino).data.length else f.off) + j - (if f.h.append then (s.ino f.ino).data.length else f.off) = j by omega,
            List.getElem?_take, if_pos (by omega)]
        · intro j hj hj2
          by_cases hb : bs = []
          · unfold splice; rw [if_pos (hpe.mpr hb)]
          · rw [splice_get _ _ _ _ (fun c => hb (hpe.mp c)), hpl]
            rcases hj2 with hj2 | hj2
            · rw [if_pos hj2, if_pos hj]
            · rw [if_neg (by omega), if_neg (by omega)]
        · intro hb j hj hj2
          rw [splice_get _ _ _ _ (fun c => hb (hpe.mp c)), if_pos hj2, if_neg (by omega)]
        · intro hb
          unfold kftime
          simp only [upd_self, if_neg (fun c => hb (hpe.mp c))]
    · simp at h
  · simp at h

/-- **C68.** A write that is refused changes nothing. -/
theorem write_refused {s : St} {n : Nat} {bs : List Nat} {a : Ans} {now : Int} (h : (kfwrite s n bs a now).2 = none) : (kfwrite s n bs a now).1 = s := by
  unfold kfwrite at h ⊢
  split
  · rename_i f q hf
    simp only [hf] at h
    split at h
    · simp at h
    · rename_i hw; rw [if_neg hw]
  · rfl

/-! ## Seeking -/

/-- **C68.** `kfseek` answers true exactly if the place asked for is a possible offset, and then the descriptor is there; otherwise nothing changes.  The file never changes. -/
theorem seek_exact (s : St) (n : Nat) (len : Int) (pos : Seek) (f : Fd) (hf : s.fds n = some f) :
    let base : Int := match pos with
      | .end => (text s f.ino).length
      | .cur => f.off
      | _ => 0
    let r := kfseek s n len pos
    (r.2 = true ↔ 0 ≤ base + len ∧ base + len ≤ offMax) ∧
    (r.2 = true → r.1 = { s with fds := upd s.fds n (some { f with off := (base + len).toNat }) }) ∧ (r.2 = false → r.1 = s) := by
  have key : ∀ (flag : Nat) (base : Int), base = (if flag = 0 then 0 else if flag = 1 then (f.off : Int) else (s.ino f.ino).data.length) →
      (((lseek s n len flag).2 != -1) = true ↔ 0 ≤ base + len ∧ base + len ≤ offMax) ∧
      (((lseek s n len flag).2 != -1) = true → (lseek s n len flag).1 = { s with fds := upd s.fds n (some { f with off := (base + len).toNat }) }) ∧
      (((lseek s n len flag).2 != -1) = false → (lseek s n len flag).1 = s) := by
    intro flag base hb
    unfold lseek
    rw [hf]
    simp only [← hb]
    by_cases hc : base + len < 0 ∨ offMax < base + len
    · rw [if_pos hc]
      refine ⟨?_, by simp, fun _ => rfl⟩
      simp only [bne_self_eq_false, Bool.false_eq_true, false_iff]; omega
    · rw [if_neg hc]
      refine ⟨?_, fun _ => rfl, ?_⟩
      · simp only [bne_iff_ne]; omega
      · intro h; simp only [bne_eq_false_iff_eq] at h; omega
  cases pos
  · exact key 0 0 rfl
  · exact key 2 _ rfl
  · exact key 1 _ rfl
  · exact key 0 0 rfl

/-- **C68.** After seeking to the end the offset is what `kfsize` says. -/
theorem seek_end_is_size (s : St) (n : Nat) (f : Fd) (hf : s.fds n = some f) (hl : ((text s f.ino).length : Int) ≤ offMax) :
    ∃ g, (kfseek s n 0 .end).1.fds n = some g ∧ (g.off : Int) = kfsize s n ∧ g.ino = f.ino ∧ g.h = f.h := by
  obtain ⟨h1, h2, _⟩ := seek_exact s n 0 .end f hf
  simp only at h1 h2
  rw [h2 (h1.mpr (by omega))]
  refine ⟨_, upd_self .., ?_, rfl, rfl⟩
  unfold kfsize
  rw [hf]
  simp [text]

/-! ## Opening -/

/-- **C68.** A successful `kfopen`: the descriptor was free; it stands at the beginning of the file the path leads to, with the access of the mode; the file is empty if the mode
truncates or the file is new, and otherwise as it was; other paths, files and descriptors stay as they are. -/
theorem open_exact {s : St} {p : Nat} {m : Mode} {flag : BitVec 32} {w : Option Nat} {now : Int} {n : Nat} (h : (kopen s p m flag w now).2 = some n) :
    let s' := (kopen s p m flag w now).1
    s.fds n = none ∧ ∃ f, s'.fds = upd s.fds n (some f) ∧ f.off = 0 ∧ f.h.canRead = m.mayRead ∧ f.h.canWrite = m.mayWrite ∧ f.h.append = decide (m = .append) ∧
      leads s' p f.ino ∧ (leads s p f.ino ∨ (s.names p = .absent ∧ f.ino = s.next ∧ m.creates = true ∧ s'.next = s.next + 1)) ∧
      (text s' f.ino = if m.truncates ∨ s.names p = .absent then [] else text s f.ino) ∧
      (∀ q, q ≠ p → s'.names q = s.names q) ∧ (∀ i, i ≠ f.ino → s'.ino i = s.ino i) ∧ (s.names p ≠ .absent → s'.next = s.next ∧ s'.names = s.names) := by
  have hb := Kasync.Open.kfopen_bits m flag
  unfold kopen at h ⊢
  split at h
  · cases h
  · rename_i w
    split at h
    · cases h
    · rename_i hfree
      have hfree' : s.fds w = none := by simpa using hfree
      simp only [if_neg hfree]
      split at h
      · cases h
      · rename_i node hd ho
        have ha := Kasync.Open.open_access m flag (view s p) node hd ho
        try simp only [ho]
        simp only at h
        obtain ⟨e1, e2, e3⟩ := Kasync.Open.open_effect m flag (view s p)
        rw [ho] at e1 e2 e3
        simp only [Option.map_some] at e1 e2 e3
        cases hn : s.names p with
        | absent =>
          rw [hn] at h
          simp only [Option.some.injEq] at h
          subst h
          have hv : view s p = .absent := by unfold view; rw [hn]
          have e1 := e1 hv
          have hc : m.creates = true := by
            cases hc : m.creates with
            | true => rfl
            | false => rw [hc] at e1; simp at e1
          rw [hc] at e1
          simp only [if_true, Option.some.injEq] at e1
          subst e1
          refine ⟨hfree', _, rfl, rfl, ha.1, ha.2.1, ha.2.2.1, ?_, ?_, ?_, ?_, ?_, ?_⟩
          · left; simp [upd]
          · right; exact ⟨rfl, rfl, hc, rfl⟩
          · simp [text, upd_self, Node.content]
          · intro q hq; exact upd_ne _ _ hq
          · intro i hi; exact upd_ne _ _ hi
          · intro hc; exact absurd rfl hc
        | file i =>
          rw [hn] at h
          simp only [Option.some.injEq] at h
          subst h
          have hv : view s p = .file (s.ino i).data := by unfold view; rw [hn]
          have e2 := e2 _ hv
          simp only [Option.some.injEq] at e2
          subst e2
          refine ⟨hfree', _, rfl, rfl, ha.1, ha.2.1, ha.2.2.1, ?_, ?_, ?_, fun _ _ => rfl, ?_, fun _ => ⟨rfl, rfl⟩⟩
          · exact Or.inl hn
          · exact Or.inl (Or.inl hn)
          · simp only [text, upd_self, Node.content, Option.getD_some]
            cases m.truncates <;> simp
          · intro j hj; exact upd_ne _ _ hj
        | link i =>
          rw [hn] at h
          simp only [Option.some.injEq] at h
          subst h
          have hv : view s p = .link (s.ino i).data := by unfold view; rw [hn]
          have e3 := e3 _ hv
          split at e3
          · cases e3
          simp only [Option.some.injEq] at e3
          subst e3
          refine ⟨hfree', _, rfl, rfl, ha.1, ha.2.1, ha.2.2.1, ?_, ?_, ?_, fun _ _ => rfl, ?_, fun _ => ⟨rfl, rfl⟩⟩
          · exact Or.inr hn
          · exact Or.inl (Or.inr hn)
          · simp only [text, upd_self, Node.content, Option.getD_some]
            cases m.truncates <;> simp
          · intro j hj; exact upd_ne _ _ hj

/-- **C68.** A `kfopen` that fails changes nothing. -/
theorem open_refused {s : St} {p : Nat} {m : Mode} {flag : BitVec 32} {w : Option Nat} {now : Int} (h : (kopen s p m flag w now).2 = none) :
    (kopen s p m flag w now).1 = s := by
  unfold kopen at h ⊢
  split
  · rfl
  · split
    · rfl
    · rename_i hfree
      simp only [if_neg hfree] at h
      split
      · rfl
      · rename_i node hd ho
        rw [ho] at h
        simp only at h
        split at h <;> simp at h

/-- **C68.** `kfopen` succeeds exactly if the kernel has a free descriptor and the path names a file, or the mode creates it; a link is refused exactly with KFILE_NOFOLLOW. -/
theorem open_succeeds (s : St) (p : Nat) (m : Mode) (flag : BitVec 32) (w : Option Nat) (now : Int) :
    (kopen s p m flag w now).2.isSome = true ↔
      (∃ n, w = some n ∧ s.fds n = none) ∧ (s.names p = .absent → m.creates = true) ∧ ((∃ i, s.names p = .link i) → test flag kfNofollow = false) := by
  obtain ⟨e1, e2, e3⟩ := Kasync.Open.open_effect m flag (view s p)
  unfold kopen
  cases w with
  | none => simp
  | some n =>
    simp only [Option.some.injEq, exists_eq_left']
    cases hf : s.fds n with
    | some f => simp
    | none =>
      simp only [Option.isSome_none, Bool.false_eq_true, if_false, true_and]
      cases hn : s.names p with
      | absent =>
        have e1 := e1 (by unfold view; rw [hn])
        cases ho : sysOpen (kfopen m flag) (view s p) with
        | none =>
          rw [ho] at e1
          cases hc : m.creates with
          | true => rw [hc] at e1; simp at e1
          | false => simp
        | some x =>
          rw [ho] at e1
          cases hc : m.creates with
          | true => simp
          | false => rw [hc] at e1; simp at e1
      | file i =>
        have e2 := e2 _ (show view s p = .file (s.ino i).data by unfold view; rw [hn])
        cases ho : sysOpen (kfopen m flag) (view s p) with
        | none => rw [ho] at e2; simp at e2
        | some x => simp
      | link i =>
        have e3 := e3 _ (show view s p = .link (s.ino i).data by unfold view; rw [hn])
        cases ho : sysOpen (kfopen m flag) (view s p) with
        | none =>
          rw [ho] at e3
          cases hc : test flag kfNofollow with
          | true => simp
          | false => rw [hc] at e3; simp at e3
        | some x =>
          rw [ho] at e3
          cases hc : test flag kfNofollow with
          | true => rw [hc] at e3; simp at e3
          | false => simp

/-- **C68.** `kfclose` frees its descriptor; other descriptors, paths and files stay as they are, and the descriptor then answers nothing but errors. -/
theorem close_exact (s : St) (n : Nat) :
    (kclose s n).fds n = none ∧ (∀ m, m ≠ n → (kclose s n).fds m = s.fds m) ∧ (kclose s n).ino = s.ino ∧ (kclose s n).names = s.names ∧
    (∀ len a, (kfread (kclose s n) n len a).2 = none) ∧ (∀ bs a now, (kfwrite (kclose s n) n bs a now).2 = none) ∧ (∀ len pos, (kfseek (kclose s n) n len pos).2 = false) := by
  have h0 : (kclose s n).fds n = none := by unfold kclose; exact upd_self ..
  refine ⟨h0, fun m hm => upd_ne _ _ hm, rfl, rfl, ?_, ?_, ?_⟩
  · intro len a; unfold kfread; rw [h0]
  · intro bs a now; unfold kfwrite; rw [h0]
  · intro len pos; unfold kfseek lseek; simp only [h0]; rfl

/-! ## Histories -/

/-- What a call added to file `i` by the account of its result: the bytes `kfwrite` said it took. -/
def wrote (s : St) (o : Op) (i : Nat) : List Nat :=
  match o with
  | .write n bs a now =>
    match s.fds n, (kfwrite s n bs a now).2 with
    | some f, some k => if f.ino = i then bs.take k else []
    | _, _ => []
  | _ => []

/-- The same for a history, in order. -/
def log (s : St) : List Op → Nat → List Nat
  | [], _ => []
  | o :: os, i => wrote s o i ++ log (step s o) os i

/-- Descriptors that can change file `i` only append to it. -/
def OnlyAppend (s : St) (i : Nat) : Prop := ∀ n f, s.fds n = some f → f.ino = i → f.h.canWrite = true → f.h.append = true

/-- The history opens the file, by whatever path, only for reading or for appending. -/
def OpensFor (s : St) (i : Nat) (ops : List Op) : Prop :=
  ∀ p m flag n now, Op.open p m flag n now ∈ ops → leads s p i → m = .append ∨ m.mayWrite = false

theorem kfreadAll_frame (s : St) (n buf : Nat) (len : Int) (mem : Nat → Nat) (as : List Ans) :
    (kfreadAll s n buf len mem as).1 = s ∨ ∃ f m, s.fds n = some f ∧ (kfreadAll s n buf len mem as).1 = { s with fds := upd s.fds n (some { f with off := f.off + m }) } := by
  cases hf : s.fds n with
  | some f =>
    obtain ⟨m, _, _, _, _, h, _⟩ := read_all_exact s n buf len mem as f hf
    exact Or.inr ⟨f, m, rfl, h⟩
  | none =>
    left
    rw [kfreadAll]
    split
    · have : ∀ a, kfread s n len.toNat a = (s, none) := by intro a; unfold kfread; rw [hf]
      rw [this]
    · rfl

/-- A call moves at most the offset of one descriptor, or … : the ways the state can change. -/
theorem step_cases (s : St) (o : Op) :
    (step s o = s) ∨
    (∃ n f off, s.fds n = some f ∧ step s o = { s with fds := upd s.fds n (some { f with off := off }) }) ∨
    (∃ n, o = .close n ∧ step s o = { s with fds := upd s.fds n none }) ∨
    (∃ p m flag w now n, o = .open p m flag w now ∧ (kopen s p m flag w now).2 = some n) ∨
    (∃ n bs a now k, o = .write n bs a now ∧ (kfwrite s n bs a now).2 = some k) ∨
    (∃ n f t, o = .utime n t true ∧ s.fds n = some f ∧ step s o = { s with ino := upd s.ino f.ino { s.ino f.ino with mtime := t } }) := by
  cases o with
  | «open» p m flag w now =>
    cases hr : (kopen s p m flag w now).2 with
    | none => left; exact open_refused hr
    | some n => right; right; right; left; exact ⟨p, m, flag, w, now, n, rfl, hr⟩
  | close n => right; right; left; exact ⟨n, rfl, rfl⟩
  | seek n len pos =>
    cases hf : s.fds n with
    | none => left; show (kfseek s n len pos).1 = s; unfold kfseek lseek; simp only [hf]
    | some f =>
      obtain ⟨_, h2, h3⟩ := seek_exact s n len pos f hf
      cases hr : (kfseek s n len pos).2 with
      | true => right; left; exact ⟨n, f, _, hf, h2 hr⟩
      | false => left; exact h3 hr
  | read n len a =>
    cases hr : (kfread s n len a).2 with
    | none => left; exact read_none (s1 := (kfread s n len a).1) (by rw [← hr])
    | some bs =>
      obtain ⟨f, hf, _, _, _, _, h, _⟩ := read_exact hr
      right; left; exact ⟨n, f, _, hf, h⟩
  | readAll n len as =>
    rcases kfreadAll_frame s n 0 len (fun _ => 0) as with h | ⟨f, m, hf, h⟩
    · left; exact h
    · right; left; exact ⟨n, f, _, hf, h⟩
  | write n bs a now =>
    cases hr : (kfwrite s n bs a now).2 with
    | none => left; exact write_refused hr
    | some k => right; right; right; right; left; exact ⟨n, bs, a, now, k, rfl, hr⟩
  | utime n t ok =>
    cases hf : s.fds n with
    | none => left; show (kfutime s n t ok).1 = s; unfold kfutime; rw [hf]
    | some f =>
      cases ok with
      | false => left; show (kfutime s n t false).1 = s; unfold kfutime; rw [hf]; simp
      | true => right; right; right; right; right; refine ⟨n, f, t, rfl, hf, ?_⟩; show (kfutime s n t true).1 = _; unfold kfutime; rw [hf]; simp

theorem wrote_other {s : St} {o : Op} {i : Nat} (h : ∀ n bs a now, o ≠ .write n bs a now) : wrote s o i = [] := by
  cases o with
  | write n bs a now => exact absurd rfl (h n bs a now)
  | _ => rfl

/-- One call on a file that is only appended to. -/
theorem step_append {s : St} {o : Op} {i : Nat} (hi : i < s.next) (ha : OnlyAppend s i) (ho : OpensFor s i [o]) :
    text (step s o) i = text s i ++ wrote s o i ∧ OnlyAppend (step s o) i ∧ s.next ≤ (step s o).next ∧ (∀ p, leads (step s o) p i → leads s p i) := by
  by_cases hw : ∃ n bs a now k, o = .write n bs a now ∧ (kfwrite s n bs a now).2 = some k
  · obtain ⟨n, bs, a, now, k, rfl, hr⟩ := hw
    obtain ⟨f, hf, hcw, hk, hk0, hlen, hget, hold, hgap, _, hfds, hnames, hnext, hino⟩ := write_exact hr
    have hstep : step s (.write n bs a now) = (kfwrite s n bs a now).1 := rfl
    rw [hstep]
    refine ⟨?_, ?_, by rw [hnext]; omega, ?_⟩
    · have hwr : wrote s (.write n bs a now) i = if f.ino = i then bs.take k else [] := by unfold wrote; simp only [hf, hr]
      rw [hwr]
      by_cases he : f.ino = i
      · subst he
        rw [if_pos rfl]
        have hap := ha n f hf rfl hcw
        rw [hap] at hlen hget hold
        simp only [if_true] at hlen hget hold
        apply List.ext_getElem?
        intro j
        rw [List.getElem?_append]
        split
        · rename_i hj; exact hold j hj (Or.inl hj)
        · rename_i hj
          rw [List.getElem?_take]
          by_cases hjk : j - (text s f.ino).length < k
          · rw [if_pos hjk]
            have := hget _ hjk
            rw [show (text s f.ino).length + (j - (text s f.ino).length) = j by omega] at this
            exact this
          · rw [if_neg hjk]
            apply List.getElem?_eq_none
            rw [hlen]; split <;> omega
      · rw [if_neg he, List.append_nil]
        unfold text; rw [hino i (fun c => he c.symm)]
    · intro m g hg hgi hgw
      rw [hfds] at hg
      by_cases hm : m = n
      · subst hm; rw [upd_self] at hg; cases hg; exact ha m f hf hgi hgw
      · rw [upd_ne _ _ hm] at hg; exact ha m g hg hgi hgw
    · intro p hp; unfold leads at hp ⊢; rw [hnames] at hp; exact hp
  · have hwr : wrote s o i = [] := by
      cases o with
      | write n bs a now =>
        unfold wrote
        cases hr : (kfwrite s n bs a now).2 with
        | none => cases hf : s.fds n <;> simp only [hf, hr]
        | some k => exact absurd ⟨n, bs, a, now, k, rfl, hr⟩ hw
      | _ => rfl
    rw [hwr, List.append_nil]
    rcases step_cases s o with h | ⟨n, f, off, hf, h⟩ | ⟨n, _, h⟩ | ⟨p, m, flag, w, now, n, rfl, hr⟩ | h | ⟨n, f, t, _, hf, h⟩
    · rw [h]; exact ⟨rfl, ha, Nat.le_refl _, fun _ hp => hp⟩
    · rw [h]
      refine ⟨rfl, ?_, Nat.le_refl _, fun _ hp => hp⟩
      intro m g hg hgi hgw
      by_cases hm : m = n
      · subst hm; simp only [upd_self, Option.some.injEq] at hg; subst hg; exact ha m f hf hgi hgw
      · simp only [upd_ne _ _ hm] at hg; exact ha m g hg hgi hgw
    · rw [h]
      refine ⟨rfl, ?_, Nat.le_refl _, fun _ hp => hp⟩
      intro m g hg hgi hgw
      by_cases hm : m = n
      · subst hm; simp only [upd_self] at hg; cases hg
      · simp only [upd_ne _ _ hm] at hg; exact ha m g hg hgi hgw
    · obtain ⟨hfree, f, hfds, _, hcr, hcw, hap, hlead, hold, htext, hnames, hino, hsame⟩ := open_exact hr
      have hstep : step s (.open p m flag w now) = (kopen s p m flag w now).1 := rfl
      rw [hstep]
      have hmode : leads s p i → m = .append ∨ m.mayWrite = false := ho p m flag w now (by simp)
      have hne : s.names p = .absent → f.ino ≠ i := by
        intro hab
        rcases hold with hl | ⟨_, h2, _⟩
        · unfold leads at hl; rw [hab] at hl; simp at hl
        · omega
      refine ⟨?_, ?_, ?_, ?_⟩
      · by_cases he : f.ino = i
        · have hna : s.names p ≠ .absent := fun c => hne c he
          rw [he] at htext hold
          have hl : leads s p i := by
            rcases hold with hl | ⟨h1, _⟩
            · exact hl
            · exact absurd h1 hna
          rw [htext, if_neg]
          rintro (hc | hc)
          · rcases hmode hl with rfl | hm
            · cases hc
            · cases m <;> simp [Kasync.Open.Mode.mayWrite, Kasync.Open.Mode.truncates] at hm hc
          · exact hna hc
        · unfold text; rw [hino i (fun c => he c.symm)]
      · intro q g hg hgi hgw
        rw [hfds] at hg
        by_cases hq : q = n
        · subst hq
          rw [upd_self] at hg
          cases hg
          have hl : leads s p i := by
            rcases hold with hl | ⟨h1, _⟩
            · rw [hgi] at hl; exact hl
            · exact absurd hgi (hne h1)
          rcases hmode hl with rfl | hm
          · rw [hap]; rfl
          · rw [hcw, hm] at hgw; cases hgw
        · rw [upd_ne _ _ hq] at hg; exact ha q g hg hgi hgw
      · by_cases hab : s.names p = .absent
        · rcases hold with hl | ⟨_, _, _, h4⟩
          · unfold leads at hl; rw [hab] at hl; simp at hl
          · rw [h4]; omega
        · rw [(hsame hab).1]; exact Nat.le_refl _
      · intro q hq
        by_cases hqp : q = p
        · subst hqp
          by_cases hab : s.names q = .absent
          · exfalso
            have hi' : f.ino = i := by
              unfold leads at hlead hq
              rcases hlead with h1 | h1 <;> rcases hq with h2 | h2 <;> rw [h1] at h2 <;> simp at h2
              · exact h2
              · exact h2
            exact hne hab hi'
          · unfold leads at hq ⊢; rw [(hsame hab).2] at hq; exact hq
        · unfold leads at hq ⊢; rw [hnames q hqp] at hq; exact hq
    · exact absurd h hw
    · rw [h]
      refine ⟨?_, ha, Nat.le_refl _, fun _ hp => hp⟩
      unfold text upd
      simp only
      split
      · subst_vars; rfl
      · rfl

/-- **C68.** A file that is opened only for reading and for appending: whatever is done in whatever order through any number of descriptors (seeks, short writes and failures included),
it consists of what was there before followed by exactly the bytes the writes said they took, in the order of the writes. -/
theorem append_history (s : St) (ops : List Op) (i : Nat) (hi : i < s.next) (ha : OnlyAppend s i) (ho : OpensFor s i ops) :
    text (run s ops) i = text s i ++ log s ops i := by
  induction ops generalizing s with
  | nil => simp [run, log]
  | cons o os ih =>
    obtain ⟨h1, h2, h3, h4⟩ := step_append hi ha (fun p m flag n now hm hl => ho p m flag n now (List.mem_cons.mpr (Or.inl (List.mem_singleton.mp hm))) hl)
    have := ih (step s o) (by omega) h2 (fun p m flag n now hm hl => ho p m flag n now (List.mem_cons_of_mem _ hm) (h4 p hl))
    show text (run (step s o) os) i = _
    rw [this, h1, log, List.append_assoc]

/-- **C68.** A file that is opened only for reading keeps its bytes, whatever is done. -/
theorem readers_change_nothing (s : St) (ops : List Op) (i : Nat) (hi : i < s.next) (hr : ∀ n f, s.fds n = some f → f.ino = i → f.h.canWrite = false)
    (ho : ∀ p m flag n now, Op.open p m flag n now ∈ ops → leads s p i → m.mayWrite = false) : text (run s ops) i = text s i := by
  have key : ∀ (ops : List Op) (s : St), i < s.next → (∀ n f, s.fds n = some f → f.ino = i → f.h.canWrite = false) →
      (∀ p m flag n now, Op.open p m flag n now ∈ ops → leads s p i → m.mayWrite = false) → log s ops i = [] := by
    intro ops
    induction ops with
    | nil => intros; rfl
    | cons o os ih =>
      intro s hi hr ho
      have hOA : OnlyAppend s i := fun n f hf hfi hw => by rw [hr n f hf hfi] at hw; cases hw
      obtain ⟨h1, h2, h3, h4⟩ := step_append (o := o) hi hOA (fun p m flag n now hm hl => Or.inr (ho p m flag n now (List.mem_cons.mpr (Or.inl (List.mem_singleton.mp hm))) hl))
      rw [log]
      have hw0 : wrote s o i = [] := by
        cases o with
        | write n bs a now =>
          unfold wrote
          cases hf : s.fds n with
          | none => simp only [hf]
          | some f =>
            cases hk : (kfwrite s n bs a now).2 with
            | none => simp only [hf, hk]
            | some k =>
              simp only [hf, hk]
              split
              · rename_i he
                obtain ⟨f', hf', hcw, _⟩ := write_exact hk
                rw [hf] at hf'; cases hf'
                rw [hr n f hf he] at hcw; cases hcw
              · rfl
        | _ => rfl
      rw [hw0, List.nil_append]
      refine ih (step s o) (by omega) ?_ (fun p m flag n now hm hl => ho p m flag n now (List.mem_cons_of_mem _ hm) (h4 p hl))
      intro m g hg hgi
      rcases step_cases s o with h | ⟨n, f, off, hf, h⟩ | ⟨n, _, h⟩ | ⟨p, md, flag, w, now, n, rfl, hres⟩ | ⟨n, bs, a, now, k, rfl, hres⟩ | ⟨n, f, t, _, hf, h⟩
      · rw [h] at hg; exact hr m g hg hgi
      · rw [h] at hg
        by_cases hm : m = n
        · subst hm; simp only [upd_self, Option.some.injEq] at hg; subst hg; exact hr m f hf hgi
        · simp only [upd_ne _ _ hm] at hg; exact hr m g hg hgi
      · rw [h] at hg
        by_cases hm : m = n
        · subst hm; simp only [upd_self] at hg; cases hg
        · simp only [upd_ne _ _ hm] at hg; exact hr m g hg hgi
      · obtain ⟨hfree, f, hfds, _, hcr, hcw, hap, hlead, hold, _, _, _, _⟩ := open_exact hres
        have hstep : step s (.open p md flag w now) = (kopen s p md flag w now).1 := rfl
        rw [hstep, hfds] at hg
        by_cases hm : m = n
        · subst hm
          rw [upd_self] at hg
          cases hg
          rcases hold with hl | ⟨_, h5, _⟩
          · rw [hgi] at hl; rw [hcw]; exact ho p md flag w now (by simp) hl
          · omega
        · rw [upd_ne _ _ hm] at hg; exact hr m g hg hgi
      · obtain ⟨f, hf, hcw, _, _, _, _, _, _, _, hfds, _⟩ := write_exact hres
        have hstep : step s (.write n bs a now) = (kfwrite s n bs a now).1 := rfl
        rw [hstep, hfds] at hg
        by_cases hm : m = n
        · subst hm; rw [upd_self] at hg; cases hg; exact hr m f hf hgi
        · rw [upd_ne _ _ hm] at hg; exact hr m g hg hgi
      · rw [h] at hg; exact hr m g hg hgi
  have := append_history s ops i hi (fun n f hf hfi hw => by rw [hr n f hf hfi] at hw; cases hw) (fun p m flag n now hm hl => Or.inr (ho p m flag n now hm hl))
  rw [this, key ops s hi hr ho, List.append_nil]

/-- The descriptor a call is about. -/
def Op.fd : Op → Option Nat
  | .open _ _ _ n _ => n
  | .close n | .seek n _ _ | .read n _ _ | .readAll n _ _ | .write n _ _ _ | .utime n _ _ => some n

/-- **C68.** Descriptors do not disturb each other: a descriptor keeps file, offset and access through every call that is not about it, and through `kfopen` always. -/
theorem own_offset (s : St) (o : Op) (n : Nat) (f : Fd) (hf : s.fds n = some f) (h : o.fd ≠ some n ∨ ∃ p m flag w now, o = .open p m flag w now) :
    (step s o).fds n = some f := by
  rcases step_cases s o with hs | ⟨m, g, off, hg, hs⟩ | ⟨m, rfl, hs⟩ | ⟨p, md, flag, w, now, m, rfl, hres⟩ | ⟨m, bs, a, now, k, rfl, hres⟩ | ⟨m, g, t, rfl, hg, hs⟩
  · rw [hs]; exact hf
  · by_cases hm : n = m
    · subst hm
      -- the only calls of this kind are about `n`
      rcases h with h | ⟨p, md, flag, w, now, rfl⟩
      · cases o with
        | «open» p md flag w now =>
          cases hr : (kopen s p md flag w now).2 with
          | none => rw [show step s (.open p md flag w now) = s from open_refused hr]; exact hf
          | some q =>
            obtain ⟨hfree, f', hfds, _⟩ := open_exact hr
            have hq : n ≠ q := by intro c; subst c; rw [hf] at hfree; cases hfree
            show (kopen s p md flag w now).1.fds n = some f
            rw [hfds, upd_ne _ _ hq]; exact hf
        | close q =>
          have hq : n ≠ q := fun c => h (by rw [c]; rfl)
          show (kclose s q).fds n = some f
          unfold kclose; simp only [upd_ne _ _ hq]; exact hf
        | seek q len pos =>
          have hq : n ≠ q := fun c => h (by rw [c]; rfl)
          cases hfq : s.fds q with
          | none => rw [show step s (.seek q len pos) = s by show (kfseek s q len pos).1 = s; unfold kfseek lseek; simp only [hfq]]; exact hf
          | some g' =>
            obtain ⟨_, h2, h3⟩ := seek_exact s q len pos g' hfq
            show (kfseek s q len pos).1.fds n = some f
            cases hr : (kfseek s q len pos).2 with
            | true => rw [h2 hr]; simp only [upd_ne _ _ hq]; exact hf
            | false => rw [h3 hr]; exact hf
        | read q len a =>
          have hq : n ≠ q := fun c => h (by rw [c]; rfl)
          show (kfread s q len a).1.fds n = some f
          cases hr : (kfread s q len a).2 with
          | none => rw [read_none (s1 := (kfread s q len a).1) (by rw [← hr])]; exact hf
          | some bs =>
            obtain ⟨g', _, _, _, _, _, h5, _⟩ := read_exact hr
            rw [h5]; simp only [upd_ne _ _ hq]; exact hf
        | readAll q len as =>
          have hq : n ≠ q := fun c => h (by rw [c]; rfl)
          show (kfreadAll s q 0 len (fun _ => 0) as).1.fds n = some f
          rcases kfreadAll_frame s q 0 len (fun _ => 0) as with h5 | ⟨g', m, _, h5⟩
          · rw [h5]; exact hf
          · rw [h5]; simp only [upd_ne _ _ hq]; exact hf
        | write q bs a now =>
          have hq : n ≠ q := fun c => h (by rw [c]; rfl)
          show (kfwrite s q bs a now).1.fds n = some f
          cases hr : (kfwrite s q bs a now).2 with
          | none => rw [write_refused hr]; exact hf
          | some k =>
            obtain ⟨g', _, _, _, _, _, _, _, _, _, hfds, _⟩ := write_exact hr
            rw [hfds, upd_ne _ _ hq]; exact hf
        | utime q t ok =>
          show (kfutime s q t ok).1.fds n = some f
          unfold kfutime
          split
          · exact hf
          · split <;> exact hf
      · cases hr : (kopen s p md flag w now).2 with
        | none => rw [show step s (.open p md flag w now) = s from open_refused hr]; exact hf
        | some q =>
          obtain ⟨hfree, f', hfds, _⟩ := open_exact hr
          have hq : n ≠ q := by intro c; subst c; rw [hf] at hfree; cases hfree
          show (kopen s p md flag w now).1.fds n = some f
          rw [hfds, upd_ne _ _ hq]; exact hf
    · rw [hs]; simp only [upd_ne _ _ hm]; exact hf
  · rw [hs]
    have hm : n ≠ m := by
      intro c
      rcases h with h | ⟨_, _, _, _, _, h⟩
      · exact h (by rw [c]; rfl)
      · cases h
    simp only [upd_ne _ _ hm]; exact hf
  · obtain ⟨hfree, f', hfds, _⟩ := open_exact hres
    have hm : n ≠ m := by intro c; subst c; rw [hf] at hfree; cases hfree
    show (kopen s p md flag w now).1.fds n = some f
    rw [hfds, upd_ne _ _ hm]; exact hf
  · obtain ⟨g', _, _, _, _, _, _, _, _, _, hfds, _⟩ := write_exact hres
    have hm : n ≠ m := by
      intro c
      rcases h with h | ⟨_, _, _, _, _, h⟩
      · exact h (by rw [c]; rfl)
      · cases h
    show (kfwrite s m bs a now).1.fds n = some f
    rw [hfds, upd_ne _ _ hm]; exact hf
  · rw [hs]; exact hf

/-- **C68.** What was written can be read back: after writing `bs` at `a` and seeking back, `kfread_all` finds exactly `bs`, however few bytes each read gives. -/
theorem write_read_back (s : St) (n : Nat) (f : Fd) (a : Nat) (bs : List Nat) (w : Ans) (now : Int) (buf : Nat) (mem : Nat → Nat) (as : List Ans)
    (hf : s.fds n = some f) (hr : f.h.canRead = true) (hna : f.h.append = false) (ha : (a : Int) ≤ offMax) (herr : Ans.err ∉ as) :
    let s1 := (kfseek s n a .begin).1
    let s2 := (kfwrite s1 n bs w now).1
    let s3 := (kfseek s2 n a .begin).1
    (kfwrite s1 n bs w now).2 = some bs.length →
    (kfreadAll s3 n buf bs.length mem as).2.2 = true ∧ ∀ j, j < bs.length → some ((kfreadAll s3 n buf bs.length mem as).2.1 (buf + j)) = bs[j]? := by
  intro s1 s2 s3 hw
  obtain ⟨a1, a2, _⟩ := seek_exact s n a .begin f hf
  simp only [Int.zero_add] at a1 a2
  have hs1 : s1 = { s with fds := upd s.fds n (some { f with off := a }) } := a2 (a1.mpr ⟨by omega, ha⟩)
  have hf1 : s1.fds n = some { f with off := a } := by rw [hs1]; exact upd_self ..
  obtain ⟨g, hg, hcw, hk, _, hlen, hget, _, _, _, hfds, _⟩ := write_exact hw
  rw [hf1] at hg
  cases hg
  simp only [hna, Bool.false_eq_true, if_false] at hlen hget hfds
  have hf2 : s2.fds n = some { f with off := a + bs.length } := by show (kfwrite s1 n bs w now).1.fds n = _; rw [hfds, upd_self]
  obtain ⟨b1, b2, _⟩ := seek_exact s2 n a .begin _ hf2
  simp only [Int.zero_add] at b1 b2
  have hs3 : s3 = { s2 with fds := upd s2.fds n (some { f with off := a }) } := b2 (b1.mpr ⟨by omega, ha⟩)
  have hf3 : s3.fds n = some { f with off := a } := by rw [hs3]; exact upd_self ..
  have ht : text s3 f.ino = text s2 f.ino := by rw [hs3]; rfl
  have hlen2 : bs = [] ∨ a + bs.length ≤ (text s3 f.ino).length := by
    rw [ht]
    show _ ∨ _ ≤ (text (kfwrite s1 n bs w now).1 f.ino).length
    by_cases hb : bs = []
    · exact Or.inl hb
    · right; rw [hlen, if_neg hb]; omega
  obtain ⟨m, h1, h2, h3, h4, h5, h6⟩ := read_all_exact s3 n buf bs.length mem as _ hf3
  have htrue : (kfreadAll s3 n buf bs.length mem as).2.2 = true := by
    rcases hlen2 with hb | hb
    · rw [h2]; subst hb; simp at h1; simp [h1]
    · exact read_all_complete s3 n buf bs.length mem as _ hf3 hr herr (by simpa using hb)
  refine ⟨htrue, fun j hj => ?_⟩
  have hm : m = bs.length := by rw [h2] at htrue; simpa using htrue
  rw [← h3 j (by omega)]
  simp only [ht]
  exact hget j hj

/-! ## Sizes and times -/

/-- **C68.** `kfsize` is the number of bytes of the file, through every descriptor of it. -/
theorem size_exact (s : St) (n : Nat) (f : Fd) (hf : s.fds n = some f) : kfsize s n = ((text s f.ino).length : Nat) := by
  unfold kfsize; rw [hf]; rfl

/-- **C68.** `kfutime` sets the time every descriptor and every direct path of the file then report, and changes no byte, no other file and no descriptor; it reports whether it did. -/
theorem utime_exact (s : St) (n : Nat) (t : Int) (ok : Bool) (f : Fd) (hf : s.fds n = some f) :
    let r := kfutime s n t ok
    r.2 = ok ∧ (ok = false → r.1 = s) ∧
    (ok = true → (∀ m g, s.fds m = some g → g.ino = f.ino → kftime r.1 m = t) ∧ (∀ p, s.names p = .file f.ino → lastModified r.1 p = t)) ∧
    (∀ i, text r.1 i = text s i) ∧ r.1.fds = s.fds ∧ (∀ i, i ≠ f.ino → r.1.ino i = s.ino i) := by
  unfold kfutime
  rw [hf]
  cases ok with
  | false => simp
  | true =>
    simp only [if_true]
    refine ⟨trivial, by simp, fun _ => ⟨?_, ?_⟩, ?_, trivial, fun i hi => upd_ne _ _ hi⟩
    · intro m g hg hgi; unfold kftime; simp only [hg, hgi, upd_self]
    · intro p hp; unfold lastModified; simp only [hp, upd_self]
    · intro i
      unfold text upd
      simp only
      split
      · subst_vars; rfl
      · rfl

/-- **C68.** `kfile_last_modified` of a regular file is what a descriptor of it reports; 0 for a path that names nothing. -/
theorem last_modified_exact (s : St) (p : Nat) :
    (∀ i n f, s.names p = .file i → s.fds n = some f → f.ino = i → lastModified s p = kftime s n) ∧ (s.names p = .absent → lastModified s p = 0) := by
  refine ⟨fun i n f h hf hi => ?_, fun h => ?_⟩
  · unfold lastModified kftime; simp only [h, hf, hi]
  · unfold lastModified; simp only [h]

/-! ## Reachable states -/

/-- **C68.** In every history that starts with no files: a descriptor and a path never refer to a file that has not been created; so a file that `kfopen` creates is empty and nobody
else's. -/
theorem created_is_private (ops : List Op) (p : Nat) (m : Mode) (flag : BitVec 32) (w : Option Nat) (now : Int) (n : Nat)
    (h : (kopen (run {} ops) p m flag w now).2 = some n) (hab : (run {} ops).names p = .absent) :
    let s := run {} ops
    ∃ f, (kopen s p m flag w now).1.fds n = some f ∧ text (kopen s p m flag w now).1 f.ino = [] ∧
      (∀ q g, s.fds q = some g → g.ino ≠ f.ino) ∧ (∀ q, ¬ leads s q f.ino) := by
  have inv : ∀ (ops : List Op) (s : St), ((∀ q g, s.fds q = some g → g.ino < s.next) ∧ (∀ q i, leads s q i → i < s.next)) →
      ((∀ q g, (run s ops).fds q = some g → g.ino < (run s ops).next) ∧ (∀ q i, leads (run s ops) q i → i < (run s ops).next)) := by
    intro ops
    induction ops with
    | nil => intro s h; exact h
    | cons o os ih =>
      intro s ⟨i1, i2⟩
      apply ih (step s o)
      rcases step_cases s o with hs | ⟨m, g, off, hg, hs⟩ | ⟨m, rfl, hs⟩ | ⟨p, md, flag, w, now, m, rfl, hres⟩ | ⟨m, bs, a, now, k, rfl, hres⟩ | ⟨m, g, t, rfl, hg, hs⟩
      · rw [hs]; exact ⟨i1, i2⟩
      · rw [hs]
        refine ⟨?_, i2⟩
        intro q g' hg'
        by_cases hq : q = m
        · subst hq; simp only [upd_self, Option.some.injEq] at hg'; subst hg'; exact i1 q g hg
        · simp only [upd_ne _ _ hq] at hg'; exact i1 q g' hg'
      · rw [hs]
        refine ⟨?_, i2⟩
        intro q g' hg'
        by_cases hq : q = m
        · subst hq; simp only [upd_self] at hg'; cases hg'
        · simp only [upd_ne _ _ hq] at hg'; exact i1 q g' hg'
      · obtain ⟨hfree, f, hfds, _, _, _, _, hlead, hold, _, hnames, _, hsame⟩ := open_exact hres
        have hstep : step s (.open p md flag w now) = (kopen s p md flag w now).1 := rfl
        rw [hstep]
        have hnext : s.next ≤ (kopen s p md flag w now).1.next ∧ f.ino < (kopen s p md flag w now).1.next := by
          rcases hold with hl | ⟨_, h2, _, h4⟩
          · have hna : s.names p ≠ .absent := by intro c; unfold leads at hl; rw [c] at hl; simp at hl
            rw [(hsame hna).1]; exact ⟨Nat.le_refl _, i2 p _ hl⟩
          · omega
        refine ⟨?_, ?_⟩
        · intro q g' hg'
          rw [hfds] at hg'
          by_cases hq : q = m
          · subst hq; rw [upd_self] at hg'; cases hg'; exact hnext.2
          · rw [upd_ne _ _ hq] at hg'; have := i1 q g' hg'; omega
        · intro q i hq
          by_cases hqp : q = p
          · subst hqp
            have : i = f.ino := by
              unfold leads at hlead hq
              rcases hlead with h1 | h1 <;> rcases hq with h2 | h2 <;> rw [h1] at h2 <;> simp at h2
              · exact h2.symm
              · exact h2.symm
            rw [this]; exact hnext.2
          · have : leads s q i := by unfold leads at hq ⊢; rw [hnames q hqp] at hq; exact hq
            have := i2 q i this; omega
      · obtain ⟨f, hf, _, _, _, _, _, _, _, _, hfds, hnm, hnx, _⟩ := write_exact hres
        have hstep : step s (.write m bs a now) = (kfwrite s m bs a now).1 := rfl
        rw [hstep, hnx]
        refine ⟨?_, fun q i hq => i2 q i (by unfold leads at hq ⊢; rw [hnm] at hq; exact hq)⟩
        intro q g' hg'
        rw [hfds] at hg'
        by_cases hq : q = m
        · subst hq; rw [upd_self] at hg'; cases hg'; exact i1 q f hf
        · rw [upd_ne _ _ hq] at hg'; exact i1 q g' hg'
      · rw [hs]; exact ⟨i1, i2⟩
  obtain ⟨j1, j2⟩ := inv ops {} ⟨fun _ _ h => by simp at h, fun _ _ h => by simp [leads] at h⟩
  obtain ⟨hfree, f, hfds, _, _, _, _, hlead, hold, htext, _⟩ := open_exact h
  have hno : f.ino = (run {} ops).next := by
    rcases hold with hl | ⟨_, h2, _⟩
    · unfold leads at hl; rw [hab] at hl; simp at hl
    · exact h2
  refine ⟨f, by rw [hfds, upd_self], ?_, ?_, ?_⟩
  · rw [htext, if_pos (Or.inr hab)]
  · intro q g hg c; have := j1 q g hg; omega
  · intro q c; have := j2 q _ c; omega

/-! ## The hypotheses are met -/

/-- A log: two appending descriptors, a reader that seeks, a short write and one that fails. -/
def history : List Op :=
  [.open 1 .append 0 (some 3) 100, .write 3 [1, 2] (.got 9) 101, .open 1 .append 0 (some 4) 102, .open 1 .read 0 (some 5) 103, .write 4 [3, 4, 5] (.got 1) 104,
   .seek 3 0 .begin, .write 5 [9] (.got 9) 105, .write 3 [6] .err 106, .write 3 [7] (.got 0) 107, .seek 5 1 .begin, .readAll 5 3 [.got 0]]

example : text (run {} history) 0 = [1, 2, 3, 4, 7] ∧ ((run {} history).fds 5).map Fd.off = some 4 ∧ kfsize (run {} history) 3 = 5 ∧ lastModified (run {} history) 1 = 107 := by
  decide +kernel

/-- The hypotheses of `append_history` after the first call. -/
example : OnlyAppend (run {} (history.take 1)) 0 ∧ OpensFor (run {} (history.take 1)) 0 (history.drop 1) ∧ log (run {} (history.take 1)) (history.drop 1) 0 = [1, 2, 3, 4, 7] := by
  refine ⟨?_, ?_, by decide +kernel⟩
  · intro n f hf _ _
    have : (run {} (history.take 1)).fds = upd (fun _ => none) 3 (some { ino := 0, off := 0, h := ⟨false, true, true, false, true⟩ }) := by rfl
    rw [this] at hf
    unfold upd at hf
    split at hf
    · cases hf; rfl
    · cases hf
  · intro p m flag n now hm _
    simp only [history, List.drop, List.mem_cons, Op.open.injEq, reduceCtorEq, List.not_mem_nil, or_false, false_or] at hm
    rcases hm with ⟨_, rfl, _⟩ | ⟨_, rfl, _⟩
    · exact Or.inl rfl
    · exact Or.inr rfl

/-- `kfread_all` in three pieces, and at the end of the file. -/
example : let s := run {} [.open 1 .writeRead 0 (some 3) 0, .write 3 [5, 6, 7, 8] (.got 9) 1, .seek 3 1 .begin]
    ((List.range 5).map (kfreadAll s 3 1 3 (fun _ => 0) [.got 0, .got 0]).2.1, (kfreadAll s 3 1 3 (fun _ => 0) [.got 0, .got 0]).2.2) = ([0, 6, 7, 8, 0], true) ∧
    ((List.range 5).map (kfreadAll s 3 1 4 (fun _ => 0) [.got 1]).2.1, (kfreadAll s 3 1 4 (fun _ => 0) [.got 1]).2.2) = ([0, 6, 7, 8, 0], false) := by
  decide +kernel

/-- A gap reads as zeros. -/
example : text (run {} [.open 1 .write 0 (some 3) 0, .write 3 [5] (.got 9) 1, .seek 3 2 .cur, .write 3 [6] (.got 9) 2]) 0 = [5, 0, 0, 6] := by decide +kernel

/-! ## Findings -/

/-- **Finding (C68).** `kfread_all` gives up at the first read the kernel refuses, also for a signal (EINTR); the bytes read so far are in memory and the offset has moved, but the caller
is not told by how much. -/
theorem read_all_interrupted :
    let s := run {} [.open 1 .writeRead 0 (some 3) 0, .write 3 [5, 6, 7, 8] (.got 9) 1, .seek 3 0 .begin]
    (kfreadAll s 3 0 4 (fun _ => 0) [.got 1, .err]).2.2 = false ∧ ((kfreadAll s 3 0 4 (fun _ => 0) [.got 1, .err]).1.fds 3).map Fd.off = some 2 := by
  decide +kernel

/-- **Finding (C68).** `kfile_last_modified` does not follow links, `kfopen` does: a link to a file that can be opened has the time 0, which also means that there is no file, or that its time is 0. -/
theorem last_modified_of_link (s : St) (p i : Nat) (h : s.names p = .link i) : lastModified s p = 0 := by
  unfold lastModified; simp only [h]

/-- **Finding (C68).** `kfsize` and `kftime` of a descriptor that is not open are 0, which is also the size of an empty file: the error cannot be seen. -/
theorem size_of_nothing (s : St) (n : Nat) (h : s.fds n = none) : kfsize s n = 0 ∧ kftime s n = 0 := by
  unfold kfsize kftime; simp only [h, and_self]

/-- **Finding (C68).** A `kfseek` with a position that is none of the three seeks from the beginning, instead of failing. -/
theorem seek_unknown_is_begin (s : St) (n : Nat) (len : Int) : kfseek s n len .other = kfseek s n len .begin := rfl

/-- **Finding (C68).** Two descriptors of one file opened for writing but not for appending overwrite each other: both writes say they took all bytes, and one byte is lost. -/
theorem writers_overwrite :
    text (run {} [.open 1 .modify 0 (some 3) 0, .open 1 .modify 0 (some 4) 1, .write 3 [1] (.got 9) 2, .write 4 [2] (.got 9) 3]) 0 = [2] := by decide +kernel

end Kasync.Plain
