import Verif.KBuf.Klib

/-! # Sizes of vectors, kinds of paths, pauses (C72) -/

namespace Kasync.Klib

/-- the bytes of the first `n` entries together -/
def total : Nat → List Nat → Nat
  | 0, _ => 0
  | _, [] => 0
  | n + 1, l :: ls => l + total n ls

theorem total_succ (n : Nat) (ls : List Nat) (x : Nat) (h : ls[n]? = some x) : total (n + 1) ls = total n ls + x := by
  induction n generalizing ls with
  | zero =>
    cases ls with
    | nil => simp at h
    | cons l ls => simp only [List.getElem?_cons_zero, Option.some.injEq] at h; simp [total, h]
  | succ n ih =>
    cases ls with
    | nil => simp at h
    | cons l ls => simp only [List.getElem?_cons_succ] at h; rw [total, ih ls h, total]; omega

theorem toInt32_range (n : Int) : -(2 : Int) ^ 31 ≤ SBuf.toInt32 n ∧ SBuf.toInt32 n < 2 ^ 31 ∧ (SBuf.toInt32 n - n) % 2 ^ 32 = 0 := by
  unfold SBuf.toInt32; omega

theorem loop_spec (bufs : List Nat) (n i : Nat) (hi : i ≤ n) (hn : n ≤ bufs.length) (len : Int) (hr : -(2 : Int) ^ 31 ≤ len ∧ len < 2 ^ 31)
    (hm : (len - total i bufs) % 2 ^ 32 = 0) :
    ∃ r, bufsLoop bufs n i len = some r ∧ (-(2 : Int) ^ 31 ≤ r ∧ r < 2 ^ 31) ∧ (r - total n bufs) % 2 ^ 32 = 0 := by
  induction hk : n - i generalizing i len with
  | zero =>
    have : i = n := by omega
    subst this
    rw [bufsLoop, if_neg (by omega)]
    exact ⟨len, rfl, hr, hm⟩
  | succ k ih =>
    have hlt : i < bufs.length := by omega
    rw [bufsLoop, if_pos (by omega), List.getElem?_eq_getElem hlt]
    have ht := total_succ i bufs _ (List.getElem?_eq_getElem hlt)
    obtain ⟨h1, h2, h3⟩ := toInt32_range ((len % 2 ^ 64 + (bufs[i] : Int)) % 2 ^ 64)
    exact ih (i + 1) (by omega) _ ⟨h1, h2⟩ (by rw [ht]; omega) (by omega)

/-- **C72 (`kgl_get_bufs_size`).** Of the first `n` entries of a vector that has them, the result is the sum of the lengths, up to a multiple of `2^32`; it is the sum itself exactly if that is below `2^31`. -/
theorem bufs_size (bufs : List Nat) (n : Nat) (hn : n ≤ bufs.length) :
    ∃ r, bufsSize bufs n = some r ∧ (-(2 : Int) ^ 31 ≤ r ∧ r < 2 ^ 31) ∧ (r - total n bufs) % 2 ^ 32 = 0 ∧ (r = total n bufs ↔ total n bufs < 2 ^ 31) := by
  obtain ⟨r, h1, h2, h3⟩ := loop_spec bufs n 0 (Nat.zero_le _) hn 0 (by omega) (by simp [total])
  exact ⟨r, h1, h2, h3, by omega⟩

/-- **C72.** A count of zero or less gives 0; a count above the vector's length reads behind it. -/
theorem bufs_size_count (bufs : List Nat) (bc : Int) : (bc ≤ 0 → bufsSize bufs bc = some 0) ∧ (bufsSize bufs bc = none ↔ (bufs.length : Int) < bc) := by
  have none_of : ∀ k i len, bufs.length - i = k → i ≤ bufs.length → (bufs.length : Int) < bc → bufsLoop bufs bc i len = none := by
    intro k
    induction k with
    | zero =>
      intro i len hk hi hb
      rw [bufsLoop, if_pos (by omega), List.getElem?_eq_none (by omega)]
    | succ k ih =>
      intro i len hk hi hb
      rw [bufsLoop, if_pos (by omega), List.getElem?_eq_getElem (by omega)]
      exact ih _ _ (by omega) (by omega) hb
  refine ⟨fun h => by rw [bufsSize, bufsLoop, if_neg (by omega)], ?_, fun h => none_of _ 0 0 rfl (by omega) h⟩
  intro h
  by_cases hb : (bufs.length : Int) < bc
  · exact hb
  · by_cases h0 : bc ≤ 0
    · rw [bufsSize, bufsLoop, if_neg (by omega)] at h; cases h
    · obtain ⟨r, h1, _⟩ := bufs_size bufs bc.toNat (by omega)
      rw [show ((bc.toNat : Nat) : Int) = bc from by omega, h] at h1
      cases h1

/-- **C72 (`kgl_is_absolute_path`).** Of a string (bytes that are not zero, then a zero, whatever follows) only the first byte matters: the answer is yes exactly if the path starts with a slash; the empty path is not absolute. -/
theorem absolute_path (path rest : List UInt8) (hp : (0 : UInt8) ∉ path) :
    isAbsolute (path ++ 0 :: rest) = some true ↔ ∃ tail, path = 47 :: tail := by
  cases path with
  | nil => simp [isAbsolute]
  | cons c p => simp [isAbsolute]

theorem absolute_total (path rest : List UInt8) : isAbsolute (path ++ 0 :: rest) ≠ none := by
  cases path <;> simp [isAbsolute]

/-- **C72 (`kgl_msleep`).** Outside fibers, every pause of 0 to 2147483 ms is made in full; a longer one is undefined (overflow), and so is every one made inside a fiber (assertion). -/
theorem msleep_exact (msec : Int) (h : 0 ≤ msec) :
    (msec ≤ 2147483 → ∃ us, msleep true msec = some us ∧ (us : Int) = msec * 1000) ∧ (2147483 < msec → msleep true msec = none) ∧ msleep false msec = none := by
  refine ⟨fun h2 => ?_, fun h2 => ?_, rfl⟩
  · unfold msleep
    rw [if_pos rfl, if_pos (by omega)]
    exact ⟨_, rfl, by omega⟩
  · unfold msleep
    rw [if_pos rfl, if_neg (by omega)]

/-! ## The hypotheses are met -/

example : bufsSize [3, 4, 5] 2 = some 7 := by
  obtain ⟨r, h1, _, _, h2⟩ := bufs_size [3, 4, 5] 2 (by decide)
  rw [show ((2 : Nat) : Int) = 2 from rfl] at h1
  rw [h1, h2.mpr (by decide)]; rfl
example : isAbsolute ([47, 116] ++ 0 :: [1]) = some true ∧ isAbsolute ([116, 47] ++ 0 :: []) = some false := by decide
example : msleep true 1500 = some 1500000 := by decide

/-! ## Findings -/

/-- **Finding (C72).** Of 2 GiB of buffers the size is negative, of 4 GiB it is 0. -/
theorem bufs_size_wraps : bufsSize [2 ^ 31] 1 = some (-2147483648) ∧ bufsSize [2 ^ 31, 2 ^ 31] 2 = some 0 := by
  constructor
  · obtain ⟨r, h1, h2, h3, _⟩ := bufs_size [2 ^ 31] 1 (by decide)
    rw [show ((1 : Nat) : Int) = 1 from rfl] at h1
    rw [h1]; simp only [total] at h3; congr 1; omega
  · obtain ⟨r, h1, h2, h3, _⟩ := bufs_size [2 ^ 31, 2 ^ 31] 2 (by decide)
    rw [show ((2 : Nat) : Int) = 2 from rfl] at h1
    rw [h1]; simp only [total] at h3; congr 1; omega

/-- **Finding (C72).** A pause of -1 ms lasts more than 71 minutes: the negative number of microseconds is taken as an unsigned one. -/
theorem msleep_negative : msleep true (-1) = some 4294966296 := by decide

end Kasync.Klib
