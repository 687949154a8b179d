import Verif.KBuf.Num
import Verif.KBuf.Props
import Verif.KBuf.SBufProps

/-!
# Numbers written to buffers (C71)
-/

namespace Kasync.KBuf.Num

/-! ## Vocabulary of the statements -/

def Digit (b : Nat) : Prop := 48 ≤ b ∧ b ≤ 57

/-- the number a sequence of digits stands for, given what stands before it -/
def evalFrom : Nat → List Nat → Nat
  | a, [] => a
  | a, b :: l => evalFrom (10 * a + (b - 48)) l

/-- The usual decimal notation: a minus sign exactly for negative numbers, at least one digit, no zero in front. -/
def Decimal (t : List Nat) (v : Int) : Prop :=
  ∃ ds, (∀ b ∈ ds, Digit b) ∧ ds ≠ [] ∧ (ds.head? = some 48 → ds = [48]) ∧ evalFrom 0 ds = v.natAbs ∧ t = if v < 0 then 45 :: ds else ds

def IsInt32 (v : Int) : Prop := -(2 : Int) ^ 31 ≤ v ∧ v < (2 : Int) ^ 31
def IsInt64 (v : Int) : Prop := -(2 : Int) ^ 63 ≤ v ∧ v < (2 : Int) ^ 63

/-! ## Helpers -/

theorem evalFrom_append (a : Nat) (l m : List Nat) : evalFrom a (l ++ m) = evalFrom (evalFrom a l) m := by
  induction l generalizing a with
  | nil => rfl
  | cons b l ih => exact ih _

theorem evalFrom_one (a b : Nat) : evalFrom a [b] = 10 * a + (b - 48) := rfl

theorem natText_spec (n : Nat) : (∀ b ∈ natText n, Digit b) ∧ natText n ≠ [] ∧ ((natText n).head? = some 48 → natText n = [48]) ∧ evalFrom 0 (natText n) = n ∧
    ((natText n).head? = some 48 → n = 0) := by
  induction n using Nat.strongRecOn with
  | ind n ih =>
    rw [natText]
    by_cases h : n < 10
    · rw [if_pos h]
      refine ⟨?_, by simp, ?_, ?_, ?_⟩
      · intro b hb; simp only [List.mem_singleton] at hb; subst hb; unfold Digit; omega
      · intro hh; simp only [List.head?_cons, Option.some.injEq] at hh; rw [hh]
      · show 10 * 0 + (48 + n - 48) = n; omega
      · intro hh; simp only [List.head?_cons, Option.some.injEq] at hh; omega
    · rw [if_neg h]
      obtain ⟨h1, h2, h3, h4, h5⟩ := ih (n / 10) (by omega)
      have hd : (natText (n / 10) ++ [48 + n % 10]).head? = (natText (n / 10)).head? := by
        cases hq : natText (n / 10) with
        | nil => exact absurd hq h2
        | cons a l => rfl
      refine ⟨?_, by simp, ?_, ?_, ?_⟩
      · intro b hb
        rw [List.mem_append] at hb
        rcases hb with hb | hb
        · exact h1 b hb
        · simp only [List.mem_singleton] at hb; subst hb; unfold Digit; omega
      · intro hh; rw [hd] at hh; have := h5 hh; omega
      · rw [evalFrom_append, h4]; show 10 * (n / 10) + (48 + n % 10 - 48) = n; omega
      · intro hh; rw [hd] at hh; have := h5 hh; omega

theorem natText_length (k n : Nat) (h : n < 10 ^ (k + 1)) : (natText n).length ≤ k + 1 := by
  induction k generalizing n with
  | zero => rw [natText, if_pos (by simpa using h)]; simp
  | succ k ih =>
    rw [natText]
    split
    · simp
    · have := ih (n / 10) (by rw [Nat.pow_succ] at h; omega)
      simp only [List.length_append, List.length_cons, List.length_nil]; omega

theorem text_decimal (v : Int) : Decimal (text v) v := by
  obtain ⟨h1, h2, h3, h4, _⟩ := natText_spec v.natAbs
  exact ⟨natText v.natAbs, h1, h2, h3, h4, rfl⟩

theorem text32_length {v : Int} (h : IsInt32 v) : (text v).length ≤ 11 := by
  obtain ⟨h1, h2⟩ := h
  have := natText_length 9 v.natAbs (by omega)
  unfold text; split
  · simp only [List.length_cons]; omega
  · omega

theorem text64_length {v : Int} (h : IsInt64 v) : (text v).length ≤ 20 := by
  obtain ⟨h1, h2⟩ := h
  have := natText_length 18 v.natAbs (by omega)
  unfold text; split
  · simp only [List.length_cons]; omega
  · omega

theorem load_text {size : Nat} {v : Int} (h : (text v).length < size) : load (snprintf size v).1 (snprintf size v).2 = some (text v) := by
  unfold load snprintf
  simp only
  rw [List.take_of_length_le (by omega), if_pos (by simp), List.take_left]

theorem evalFrom_ge (a : Nat) (l : List Nat) (h : 0 < a) : 0 < evalFrom a l := by
  induction l generalizing a with
  | nil => exact h
  | cons b l ih => exact ih _ (by omega)

theorem natText_eval {ds : List Nat} (hd : ∀ b ∈ ds, Digit b) (hne : ds ≠ []) (h0 : ds.head? = some 48 → ds = [48]) : natText (evalFrom 0 ds) = ds := by
  suffices H : ∀ (n : Nat) (ds : List Nat), ds.length = n → (∀ b ∈ ds, Digit b) → ds ≠ [] → (ds.head? = some 48 → ds = [48]) → natText (evalFrom 0 ds) = ds from H _ ds rfl hd hne h0
  intro n
  induction n with
  | zero => intro ds hl _ hne _; exact absurd (List.length_eq_zero_iff.mp hl) hne
  | succ n ih =>
    intro ds hl hd hne h0
    have hs := List.dropLast_concat_getLast hne
    have hlast := hd _ (List.getLast_mem hne)
    generalize ds.getLast hne = z at hs hlast
    cases hq : ds.dropLast with
    | nil =>
      rw [hq] at hs
      rw [← hs]
      obtain ⟨a1, a2⟩ := hlast
      have hz : natText (z - 48) = [48 + (z - 48)] := by rw [natText, if_pos (by omega)]
      have hz2 : evalFrom 0 ([] ++ [z]) = z - 48 := by rw [List.nil_append, evalFrom_one]; omega
      rw [hz2, hz, show 48 + (z - 48) = z from by omega]; rfl
    | cons a l =>
      rw [hq] at hs
      have hhead : ds.head? = some a := by rw [← hs]; rfl
      have ha : Digit a := hd a (by rw [← hs]; simp)
      have ha48 : a ≠ 48 := by
        intro hc
        have := h0 (by rw [hhead, hc])
        rw [this] at hs
        simp at hs
      have := ih (a :: l) (by have := congrArg List.length hs; simp at this ⊢; omega) (fun b hb => hd b (by rw [← hs]; exact List.mem_append_left _ hb)) (by simp)
        (fun hc => absurd (by simpa using hc) ha48)
      have hpos : 0 < evalFrom 0 (a :: l) := by
        obtain ⟨b1, b2⟩ := ha
        exact evalFrom_ge (10 * 0 + (a - 48)) l (by omega)
      obtain ⟨a1, a2⟩ := hlast
      rw [← hs, evalFrom_append]
      show natText (10 * evalFrom 0 (a :: l) + (z - 48)) = _
      generalize evalFrom 0 (a :: l) = E at this hpos
      rw [natText, if_neg (by omega), show (10 * E + (z - 48)) / 10 = E from by omega, this]
      congr 2; omega

theorem Decimal.eq_text {t : List Nat} {v : Int} (h : Decimal t v) : t = text v := by
  obtain ⟨ds, h1, h2, h3, h4, rfl⟩ := h
  unfold text
  rw [← h4, natText_eval h1 h2 h3]

/-! ## Properties -/

/-- **C71.** Every number has exactly one decimal notation, and a notation belongs to one number. -/
theorem decimal_unique {t t' : List Nat} {v v' : Int} (h : Decimal t v) (h' : Decimal t' v') : t = t' ↔ v = v' := by
  constructor
  · intro ht
    obtain ⟨ds, h1, h2, h3, h4, h5⟩ := h
    obtain ⟨ds', h1', h2', h3', h4', h5'⟩ := h'
    rw [h5, h5'] at ht
    have minus : ∀ l : List Nat, (∀ b ∈ l, Digit b) → ∀ m, l = 45 :: m → False := by
      intro l hl m hm
      have := hl 45 (by rw [hm]; simp)
      unfold Digit at this; omega
    by_cases hv : v < 0 <;> by_cases hv' : v' < 0
    · rw [if_pos hv, if_pos hv'] at ht
      injection ht with _ ht
      rw [ht, h4'] at h4; omega
    · rw [if_pos hv, if_neg hv'] at ht; exact (minus ds' h1' _ ht.symm).elim
    · rw [if_neg hv, if_pos hv'] at ht; exact (minus ds h1 _ ht).elim
    · rw [if_neg hv, if_neg hv'] at ht
      rw [ht, h4'] at h4; omega
  · intro hv; subst hv; rw [h.eq_text, h'.eq_text]

/-- **C71 (`krw_write_int`).** The decimal notation of the number is appended to what can be read, of every `int`; it has at most 11 bytes. -/
theorem krw_int_exact (junk : Nat → Byte) {s : State} (h : WF s) (hz : 0 < s.chunkSize) {v : Int} (hv : IsInt32 v) :
    ∃ s' t, krwWriteInt junk s v = some s' ∧ WF s' ∧ stream s' = stream s ++ t ∧ Decimal t v ∧ t.length ≤ 11 ∧ s'.totalLen = s.totalLen + t.length := by
  have hl := text32_length hv
  obtain ⟨s', e, w, st, _⟩ := writeStrLoop_spec junk (text v).length s (text v) h hz (Nat.le_refl _)
  refine ⟨s', text v, ?_, w, st, text_decimal v, hl, by rw [w.total, h.total, st]; simp⟩
  simp only [krwWriteInt, load_text (show (text v).length < 16 by omega), Option.bind_eq_bind, Option.bind_some, writeStr, e]

/-- **C71 (`krw_write_int64`).** -/
theorem krw_int64_exact (junk : Nat → Byte) {s : State} (h : WF s) (hz : 0 < s.chunkSize) {v : Int} (hv : IsInt64 v) :
    ∃ s' t, krwWriteInt64 junk s v = some s' ∧ WF s' ∧ stream s' = stream s ++ t ∧ Decimal t v ∧ t.length ≤ 20 ∧ s'.totalLen = s.totalLen + t.length := by
  have hl := text64_length hv
  obtain ⟨s', e, w, st, _⟩ := writeStrLoop_spec junk (text v).length s (text v) h hz (Nat.le_refl _)
  refine ⟨s', text v, ?_, w, st, text_decimal v, hl, by rw [w.total, h.total, st]; simp⟩
  simp only [krwWriteInt64, load_text (show (text v).length < 32 by omega), Option.bind_eq_bind, Option.bind_some, writeStr, e]

theorem ks_write {s : SBuf.State} (junk : Nat → Byte) (h : SBuf.WF s) (hz : 0 < s.bufSize) (bs : List Nat) :
    ∃ s', SBuf.writeStr junk s bs = some s' ∧ SBuf.WF s' ∧ SBuf.content s' = SBuf.content s ++ bs := by
  obtain ⟨s', w, c, e, wf, _, st⟩ := SBuf.applyW_spec junk h hz (.write bs) trivial
  simp only [SBuf.applyW, Option.map_eq_some_iff, Prod.mk.injEq] at e
  obtain ⟨s1, e1, rfl, rfl, rfl⟩ := e
  exact ⟨s1, e1, wf, by simpa using st⟩

/-- **C71 (`ks_write_int`).** -/
theorem ks_int_exact (junk : Nat → Byte) {s : SBuf.State} (h : SBuf.WF s) (hz : 0 < s.bufSize) {v : Int} (hv : IsInt32 v) :
    ∃ s' t, ksWriteInt junk s v = some s' ∧ SBuf.WF s' ∧ SBuf.content s' = SBuf.content s ++ t ∧ Decimal t v ∧ t.length ≤ 11 := by
  have hl := text32_length hv
  obtain ⟨s', e, w, st⟩ := ks_write junk h hz (text v)
  refine ⟨s', text v, ?_, w, st, text_decimal v, hl⟩
  simp only [ksWriteInt, load_text (show (text v).length < 16 by omega), Option.bind_eq_bind, Option.bind_some, e]

/-- **C71 (`ks_write_int64`).** -/
theorem ks_int64_exact (junk : Nat → Byte) {s : SBuf.State} (h : SBuf.WF s) (hz : 0 < s.bufSize) {v : Int} (hv : IsInt64 v) :
    ∃ s' t, ksWriteInt64 junk s v = some s' ∧ SBuf.WF s' ∧ SBuf.content s' = SBuf.content s ++ t ∧ Decimal t v ∧ t.length ≤ 20 := by
  have hl := text64_length hv
  obtain ⟨s', e, w, st⟩ := ks_write junk h hz (text v)
  refine ⟨s', text v, ?_, w, st, text_decimal v, hl⟩
  simp only [ksWriteInt64, load_text (show (text v).length < 32 by omega), Option.bind_eq_bind, Option.bind_some, e]

/-! ### Sequences of numbers -/

/-- every number followed by a separator -/
def lines (sep : Nat) : List (List Nat) → List Nat
  | [] => []
  | t :: ts => t ++ sep :: lines sep ts

/-- `krw_write_int64` and `krw_write_str` of the separator, for every number -/
def writeLines (junk : Nat → Byte) (sep : Nat) (s : State) : List Int → Option State
  | [] => some s
  | v :: vs => do
    let s ← krwWriteInt64 junk s v
    let s ← writeStr junk s [sep]
    writeLines junk sep s vs

/-- the numbers' notations, one for one -/
def Decimals : List (List Nat) → List Int → Prop
  | [], [] => True
  | t :: ts, v :: vs => Decimal t v ∧ Decimals ts vs
  | _, _ => False

/-- **C71.** Numbers written with a separator after each arrive as their notations with the separators, in order. -/
theorem lines_exact (junk : Nat → Byte) (sep : Nat) (vs : List Int) {s : State} (h : WF s) (hz : 0 < s.chunkSize) (hv : ∀ v ∈ vs, IsInt64 v) :
    ∃ s' ts, writeLines junk sep s vs = some s' ∧ WF s' ∧ Decimals ts vs ∧ stream s' = stream s ++ lines sep ts := by
  induction vs generalizing s with
  | nil => exact ⟨s, [], rfl, h, trivial, by simp [lines]⟩
  | cons v vs ih =>
    have hl := text64_length (hv v (by simp))
    obtain ⟨s1, e1, w1, st1, cz1⟩ := writeStrLoop_spec junk (text v).length s (text v) h hz (Nat.le_refl _)
    have e1' : krwWriteInt64 junk s v = some s1 := by
      simp only [krwWriteInt64, load_text (show (text v).length < 32 by omega), Option.bind_eq_bind, Option.bind_some, writeStr, e1]
    obtain ⟨s2, e2, w2, st2, cz2⟩ := writeStrLoop_spec junk 1 s1 [sep] w1 (by omega) (Nat.le_refl _)
    obtain ⟨s3, ts, e3, w3, d3, st3⟩ := ih w2 (by omega) (fun x hx => hv x (List.mem_cons_of_mem _ hx))
    refine ⟨s3, text v :: ts, ?_, w3, ⟨text_decimal v, d3⟩, ?_⟩
    · have e2' : writeStr junk s1 [sep] = some s2 := e2
      simp only [writeLines, e1', e2', e3, Option.bind_eq_bind, Option.bind_some]
    · rw [st3, st2, st1]; simp [lines]

theorem split_at {sep : Nat} {a b x y : List Nat} (ha : sep ∉ a) (hb : sep ∉ b) (h : a ++ sep :: x = b ++ sep :: y) : a = b ∧ x = y := by
  induction a generalizing b with
  | nil =>
    cases b with
    | nil => simp only [List.nil_append, List.cons.injEq, true_and] at h; exact ⟨rfl, h⟩
    | cons c b =>
      simp only [List.nil_append, List.cons_append, List.cons.injEq] at h
      exact absurd (by simp [h.1]) hb
  | cons d a ih =>
    cases b with
    | nil =>
      simp only [List.nil_append, List.cons_append, List.cons.injEq] at h
      exact absurd (by simp [h.1]) ha
    | cons c b =>
      simp only [List.cons_append, List.cons.injEq] at h
      obtain ⟨h1, h2⟩ := ih (fun c => ha (List.mem_cons_of_mem _ c)) (fun c => hb (List.mem_cons_of_mem _ c)) h.2
      exact ⟨by rw [h.1, h1], h2⟩

/-- **C71.** If the separator is neither a digit nor the minus sign, the reader of the bytes can tell which numbers were written. -/
theorem lines_readable {sep : Nat} (h1 : ¬ Digit sep) (h2 : sep ≠ 45) {ts ts' : List (List Nat)} {vs vs' : List Int} (hd : Decimals ts vs) (hd' : Decimals ts' vs')
    (h : lines sep ts = lines sep ts') : vs = vs' := by
  have hn : ∀ {t v}, Decimal t v → sep ∉ t := by
    rintro t v ⟨ds, a1, _, _, _, rfl⟩ hc
    split at hc
    · rcases List.mem_cons.mp hc with hc | hc
      · exact h2 hc
      · exact h1 (a1 _ hc)
    · exact h1 (a1 _ hc)
  induction ts generalizing ts' vs vs' with
  | nil =>
    cases vs with
    | cons => exact hd.elim
    | nil =>
      cases ts' with
      | nil => cases vs' with
        | nil => rfl
        | cons => exact hd'.elim
      | cons t ts' => simp [lines] at h
  | cons t ts ih =>
    cases vs with
    | nil => exact hd.elim
    | cons v vs =>
      cases ts' with
      | nil => simp [lines] at h
      | cons t' ts' =>
        cases vs' with
        | nil => exact hd'.elim
        | cons v' vs' =>
          simp only [lines] at h
          obtain ⟨e1, e2⟩ := split_at (hn hd.1) (hn hd'.1) h
          rw [(decimal_unique hd.1 hd'.1).mp e1, ih hd.2 hd'.2 e2]

/-! ## The hypotheses are met -/

example : IsInt32 (-2147483648) ∧ text (-2147483648) = [45, 50, 49, 52, 55, 52, 56, 51, 54, 52, 56] := ⟨by unfold IsInt32; omega, by simp [text, natText]⟩
example : IsInt64 (-9223372036854775808) ∧ (text (-9223372036854775808)).length = 20 := ⟨by unfold IsInt64; omega, by simp [text, natText]⟩
example : (krwWriteInt (fun _ => 7) (init 3) (-40)).map stream = some [45, 52, 48] ∧ WF (init 3) := by
  refine ⟨?_, init_wf 3⟩
  simp [krwWriteInt, snprintf, load, text, natText]; decide
example : Decimal [45, 52, 48] (-40) := ⟨[52, 48], by unfold Digit; simp, by simp, by simp, by decide, by decide⟩

/-! ## Findings -/

/-- **Finding (C71).** Without a separator the numbers 1, 23 and the numbers 12, 3 give the same bytes. -/
theorem no_separator_ambiguous : ∃ t1 t2 t3 t4, Decimal t1 1 ∧ Decimal t2 23 ∧ Decimal t3 12 ∧ Decimal t4 3 ∧ t1 ++ t2 = t3 ++ t4 :=
  ⟨text 1, text 23, text 12, text 3, text_decimal _, text_decimal _, text_decimal _, text_decimal _, by simp [text, natText]⟩

end Kasync.KBuf.Num
