/-!
# The alignment macros, include/kmalloc.h:34-37

`kgl_align(d,a)` is `((d) + (a-1)) & ~(a-1)`, `kgl_align_floor(d,a)` is `(d) & ~(a-1)`.  The models use the arithmetic
form below; `align_bits` shows that on machine words and for powers of two the bit form computes the same number as long
as the addition does not wrap.
-/

namespace Kasync

/-- `kgl_align_floor`, include/kmalloc.h:34, for a power of two -/
def alignDown (d a : Nat) : Nat := d - d % a

/-- `kgl_align`, include/kmalloc.h:35 -/
def alignUp (d a : Nat) : Nat := alignDown (d + (a - 1)) a

theorem alignDown_le (d a : Nat) : alignDown d a ≤ d := Nat.sub_le _ _

theorem alignDown_mod (d a : Nat) : alignDown d a % a = 0 := by
  unfold alignDown
  have h := Nat.div_add_mod d a
  have : d - d % a = a * (d / a) := by omega
  rw [this, Nat.mul_mod_right]

theorem lt_alignDown_add (d a : Nat) (ha : 0 < a) : d < alignDown d a + a := by
  unfold alignDown
  have := Nat.mod_lt d ha
  have := Nat.mod_le d a
  omega

theorem alignUp_mod (d a : Nat) : alignUp d a % a = 0 := alignDown_mod _ _

theorem le_alignUp (d a : Nat) (ha : 0 < a) : d ≤ alignUp d a := by
  have := lt_alignDown_add (d + (a - 1)) a ha
  unfold alignUp
  omega

theorem alignUp_lt (d a : Nat) (ha : 0 < a) : alignUp d a < d + a := by
  have := alignDown_le (d + (a - 1)) a
  unfold alignUp
  omega

theorem alignUp_eq_self {d a : Nat} (ha : 0 < a) (h : d % a = 0) : alignUp d a = d := by
  have h1 := alignUp_mod d a
  have h2 := le_alignUp d a ha
  have h3 := alignUp_lt d a ha
  obtain ⟨x, hx⟩ : a ∣ d := Nat.dvd_of_mod_eq_zero h
  obtain ⟨y, hy⟩ : a ∣ alignUp d a := Nat.dvd_of_mod_eq_zero h1
  rw [hy] at h2 h3 ⊢
  subst hx
  have hxy : x ≤ y := Nat.le_of_mul_le_mul_left h2 ha
  have : a * y < a * (x + 1) := by rw [Nat.mul_succ]; exact h3
  have := Nat.lt_of_mul_lt_mul_left this
  have : x = y := by omega
  rw [this]

/-- The bit form of the macro, on 64 bit words. -/
def alignBits (d a : BitVec 64) : BitVec 64 := (d + (a - 1)) &&& ~~~(a - 1)

theorem and_not_mask (x : BitVec 64) (k : Nat) (hk : k < 64) :
    (x &&& ~~~((1#64 <<< k) - 1)).toNat = alignDown x.toNat (2 ^ k) := by
  have hm : (1#64 <<< k) - 1 = BitVec.ofNat 64 (2 ^ k - 1) := by
    apply BitVec.eq_of_toNat_eq
    have h1 : 2 ^ k < 2 ^ 64 := Nat.pow_lt_pow_right (by omega) hk
    have h2 : 0 < 2 ^ k := Nat.pow_pos (by omega)
    simp only [BitVec.toNat_sub, BitVec.toNat_shiftLeft, BitVec.toNat_ofNat, Nat.shiftLeft_eq]
    have e1 : 1 % 2 ^ 64 = 1 := rfl
    have e2 : BitVec.toNat (1 : BitVec 64) = 1 := rfl
    rw [e1, e2, Nat.one_mul, Nat.mod_eq_of_lt h1]
    omega
  have hx : x &&& ~~~((1#64 <<< k) - 1) = (x >>> k) <<< k := by
    rw [hm]
    apply BitVec.eq_of_getLsbD_eq
    intro i hi
    simp only [BitVec.getLsbD_and, BitVec.getLsbD_not, BitVec.getLsbD_ofNat, BitVec.getLsbD_shiftLeft,
      BitVec.getLsbD_ushiftRight, Nat.testBit_two_pow_sub_one]
    by_cases hik : i < k
    · simp [hik]
    · have : k + (i - k) = i := by omega
      simp [hik, hi, this]
  rw [hx, BitVec.toNat_shiftLeft, BitVec.toNat_ushiftRight, Nat.shiftRight_eq_div_pow, Nat.shiftLeft_eq]
  unfold alignDown
  have h := Nat.div_add_mod x.toNat (2 ^ k)
  rw [Nat.mul_comm] at h
  have hlt := x.isLt
  rw [Nat.mod_eq_of_lt (by omega)]
  omega

/-- The macro `kgl_align` computes `alignUp` for every power of two, unless the addition wraps. -/
theorem align_bits (d : BitVec 64) (k : Nat) (hk : k < 64) (hd : d.toNat + (2 ^ k - 1) < 2 ^ 64) :
    (alignBits d (1#64 <<< k)).toNat = alignUp d.toNat (2 ^ k) := by
  unfold alignBits alignUp
  rw [and_not_mask _ k hk]
  congr 1
  have h1 : 2 ^ k < 2 ^ 64 := Nat.pow_lt_pow_right (by omega) hk
  have h2 : 0 < 2 ^ k := Nat.pow_pos (by omega)
  have : ((1#64 <<< k) - 1).toNat = 2 ^ k - 1 := by
    simp only [BitVec.toNat_sub, BitVec.toNat_shiftLeft, BitVec.toNat_ofNat, Nat.shiftLeft_eq]
    have e1 : 1 % 2 ^ 64 = 1 := rfl
    have e2 : BitVec.toNat (1 : BitVec 64) = 1 := rfl
    rw [e1, e2, Nat.one_mul, Nat.mod_eq_of_lt h1]
    omega
  rw [BitVec.toNat_add, this, Nat.mod_eq_of_lt hd]

example : (alignBits 1025#64 (1#64 <<< 10)).toNat = 2048 := by rw [align_bits _ _ (by decide) (by decide)]; decide

end Kasync
