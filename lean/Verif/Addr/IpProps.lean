import Verif.Addr.Ip

/-!
# C40: address comparison, masking and hashing
-/

namespace Kasync.Ip

/-! ## Specification -/

/-- Two `ip_addr` denote the same address: same family, and for IPv4 the same first word, otherwise the same
sixteen bytes. -/
def Same (a b : IpAddr) : Prop :=
  a.family = b.family ∧
  (a.family = PF_INET → a.w0 = b.w0) ∧
  (a.family ≠ PF_INET → a.w0 = b.w0 ∧ a.w1 = b.w1 ∧ a.w2 = b.w2 ∧ a.w3 = b.w3)

/-- Two `sockaddr_i` denote the same host (ports do not count). -/
def SameHost (a b : SockAddr) : Prop :=
  a.family = b.family ∧
  (a.family = PF_INET → a.v4 = b.v4) ∧
  (a.family ≠ PF_INET → a.v6.w0 = b.v6.w0 ∧ a.v6.w1 = b.v6.w1 ∧ a.v6.w2 = b.v6.w2 ∧ a.v6.w3 = b.v6.w3)

/-- Word `i` of an address. -/
def word (a : IpAddr) : Nat → BitVec 32
  | 0 => a.w0 | 1 => a.w1 | 2 => a.w2 | _ => a.w3

/-- `a` lies in the network of `n` under `mask`: same family and equal in every bit the mask selects. -/
def InNetwork (a n mask : IpAddr) : Prop :=
  a.family = n.family ∧
  ∀ i, i < 4 → (a.family = PF_INET → i = 0) → ∀ j, j < 32 →
    (word mask i).getLsbD j = true → (word a i).getLsbD j = (word n i).getLsbD j

/-! ## memcmp -/

theorem wordBytes_inj {v w : BitVec 32} (h : wordBytes v = wordBytes w) : v = w := by
  simp only [wordBytes, List.cons.injEq, and_true] at h
  have h1 := v.isLt
  have h2 := w.isLt
  exact BitVec.eq_of_toNat_eq (by omega)

theorem addr8_inj {a b : IpAddr} (h : addr8 a = addr8 b) :
    a.w0 = b.w0 ∧ a.w1 = b.w1 ∧ a.w2 = b.w2 ∧ a.w3 = b.w3 := by
  unfold addr8 at h
  obtain ⟨h0, h⟩ := List.append_inj h rfl
  obtain ⟨h1, h⟩ := List.append_inj h rfl
  obtain ⟨h2, h3⟩ := List.append_inj h rfl
  exact ⟨wordBytes_inj h0, wordBytes_inj h1, wordBytes_inj h2, wordBytes_inj h3⟩

theorem addr8_length (a : IpAddr) : (addr8 a).length = 16 := rfl

theorem memcmp_eq_zero : ∀ s t : List Nat, s.length = t.length → (memcmp s t = 0 ↔ s = t)
  | [], [], _ => by simp [memcmp]
  | [], _ :: _, h => by simp at h
  | _ :: _, [], h => by simp at h
  | a :: s, b :: t, h => by
    simp only [memcmp]
    split
    · rename_i e; subst e
      rw [memcmp_eq_zero s t (by simpa using h)]; simp
    · rename_i e
      constructor
      · omega
      · intro e'; injection e' with e1 _; exact absurd e1 e

theorem memcmp_neg : ∀ s t : List Nat, memcmp s t = - memcmp t s
  | [], [] => rfl
  | [], _ :: _ => rfl
  | _ :: _, [] => rfl
  | a :: s, b :: t => by
    simp only [memcmp]
    by_cases e : a = b
    · subst e; simp only [if_true]; exact memcmp_neg s t
    · rw [if_neg e, if_neg (Ne.symm e)]; omega

theorem memcmp_trans : ∀ s t u : List Nat, s.length = t.length → t.length = u.length →
    memcmp s t < 0 → memcmp t u < 0 → memcmp s u < 0
  | [], _, _, _, _, h, _ => by simp [memcmp] at h
  | _ :: _, [], _, h, _, _, _ => by simp at h
  | _ :: _, _ :: _, [], _, h, _, _ => by simp at h
  | a :: s, b :: t, c :: u, l1, l2, h1, h2 => by
    simp only [memcmp] at h1 h2 ⊢
    simp only [List.length_cons] at l1 l2
    by_cases e1 : a = b
    · subst e1
      rw [if_pos rfl] at h1
      by_cases e2 : a = c
      · subst e2
        rw [if_pos rfl] at h2 ⊢
        exact memcmp_trans s t u (by omega) (by omega) h1 h2
      · rw [if_neg e2] at h2 ⊢; exact h2
    · rw [if_neg e1] at h1
      by_cases e2 : b = c
      · subst e2; rw [if_neg e1]; exact h1
      · rw [if_neg e2] at h2
        rw [if_neg (by omega)]; omega

theorem memcmp_addr {a b : IpAddr} : memcmp (addr8 a) (addr8 b) = 0 ↔
    a.w0 = b.w0 ∧ a.w1 = b.w1 ∧ a.w2 = b.w2 ∧ a.w3 = b.w3 := by
  rw [memcmp_eq_zero (addr8 a) (addr8 b) rfl]
  exact ⟨addr8_inj, fun ⟨h0, h1, h2, h3⟩ => by simp only [addr8, h0, h1, h2, h3]⟩

theorem subInt_zero {x y : BitVec 32} : subInt x y = some 0 ↔ x = y := by
  unfold subInt
  constructor
  · intro h
    split at h
    · have := Option.some.inj h
      exact BitVec.toInt_inj.mp (by omega)
    · cases h
  · rintro rfl
    rw [if_pos (by unfold InInt; omega)]
    congr 1; omega

/-! ## C40: equality -/

/-- **C40** Comparison answers 0 exactly on equal addresses - the words of an IPv4 address that are not part of it do
not matter - and in particular comparing an address with itself gives 0. -/
theorem ipaddr_compare_zero_iff (a b : IpAddr) : ipaddrCompare a b = some 0 ↔ Same a b := by
  unfold ipaddrCompare Same
  by_cases hf : a.family = b.family
  · have hr : (a.family : Int) - (b.family : Int) = 0 := by omega
    dsimp only
    rw [if_neg (by simp [hr])]
    by_cases h4 : a.family = PF_INET
    · rw [if_pos h4, subInt_zero]
      exact ⟨fun h => ⟨hf, fun _ => h, fun n => absurd h4 n⟩, fun h => h.2.1 h4⟩
    · rw [if_neg h4, Option.some_inj, memcmp_addr]
      exact ⟨fun h => ⟨hf, fun n => absurd n h4, fun _ => h⟩, fun h => h.2.2 h4⟩
  · dsimp only
    rw [if_pos (by omega)]
    constructor
    · intro h; have := Option.some.inj h; omega
    · intro h; exact absurd h.1 hf

theorem ipaddr_compare_self (a : IpAddr) : ipaddrCompare a a = some 0 :=
  (ipaddr_compare_zero_iff a a).mpr ⟨rfl, fun _ => rfl, fun _ => ⟨rfl, rfl, rfl, rfl⟩⟩

/-- **C40** The same for socket addresses: 0 exactly when they denote the same host, the port does not count. -/
theorem addr_compare_zero_iff (a b : SockAddr) : addrCompare a b = some 0 ↔ SameHost a b := by
  unfold addrCompare SameHost
  by_cases hf : a.family = b.family
  · have hr : (a.family : Int) - (b.family : Int) = 0 := by omega
    dsimp only
    rw [if_neg (by simp [hr])]
    by_cases h4 : a.family = PF_INET
    · rw [if_pos h4, subInt_zero]
      exact ⟨fun h => ⟨hf, fun _ => h, fun n => absurd h4 n⟩, fun h => h.2.1 h4⟩
    · rw [if_neg h4, Option.some_inj, memcmp_addr]
      exact ⟨fun h => ⟨hf, fun n => absurd n h4, fun _ => h⟩, fun h => h.2.2 h4⟩
  · dsimp only
    rw [if_pos (by omega)]
    constructor
    · intro h; have := Option.some.inj h; omega
    · intro h; exact absurd h.1 hf

/-- **C40** Addresses that compare equal have the same hash. -/
theorem addr_hash_respects_compare (a b : SockAddr) (h : addrCompare a b = some 0) : addrHash a = addrHash b := by
  obtain ⟨hf, h4, h6⟩ := (addr_compare_zero_iff a b).mp h
  unfold addrHash
  by_cases e : a.family = PF_INET
  · rw [if_pos e, if_pos (hf ▸ e), h4 e]
  · obtain ⟨e0, e1, e2, e3⟩ := h6 e
    rw [if_neg e, if_neg (hf ▸ e), e0, e1, e2, e3]

/-- **C40** Extracting the addresses of two socket addresses, into variables with any previous contents, and comparing
those gives what comparing the socket addresses gives. -/
theorem ipaddr_of_sockaddr_compare (a b : SockAddr) (ra rb : IpAddr) :
    ipaddrCompare (ipaddrOf a ra) (ipaddrOf b rb) = addrCompare a b := by
  unfold ipaddrCompare addrCompare ipaddrOf
  by_cases hf : a.family = b.family
  · have hr : (a.family : Int) - (b.family : Int) = 0 := by omega
    by_cases h4 : a.family = PF_INET
    · have h4' : b.family = PF_INET := hf ▸ h4
      simp [h4, h4']
    · have h4' : ¬ b.family = PF_INET := hf ▸ h4
      simp only [h4, h4', if_false]
      simp only [hf, ne_eq]
      rfl
  · have h1 : ∀ (x : SockAddr) (r : IpAddr), (if x.family = PF_INET then
        { { r with family := x.family } with w0 := x.v4 } else
        { { r with family := x.family } with w0 := x.v6.w0, w1 := x.v6.w1, w2 := x.v6.w2, w3 := x.v6.w3 }).family =
        x.family := by
      intro x r; split <;> rfl
    dsimp only at h1 ⊢
    simp only [h1]
    rw [if_pos (by omega), if_pos (by omega)]

/-! ## C40: order -/

/-- **C40** Antisymmetry, wherever both comparisons are defined. -/
theorem ipaddr_compare_anti (a b : IpAddr) (x y : Int) (h1 : ipaddrCompare a b = some x)
    (h2 : ipaddrCompare b a = some y) : x = - y := by
  unfold ipaddrCompare at h1 h2
  dsimp only at h1 h2
  by_cases hf : a.family = b.family
  · rw [if_neg (by omega)] at h1 h2
    by_cases h4 : a.family = PF_INET
    · rw [if_pos h4] at h1
      rw [if_pos (hf ▸ h4)] at h2
      unfold subInt at h1 h2
      split at h1 <;> split at h2 <;> first | (cases h1; done) | (cases h2; done) | skip
      have := Option.some.inj h1
      have := Option.some.inj h2
      omega
    · rw [if_neg h4] at h1
      rw [if_neg (hf ▸ h4)] at h2
      have := Option.some.inj h1
      have := Option.some.inj h2
      have := memcmp_neg (addr8 a) (addr8 b)
      omega
  · rw [if_pos (by omega)] at h1 h2
    have := Option.some.inj h1
    have := Option.some.inj h2
    omega

/-- **C40** Transitivity, wherever the comparisons are defined. -/
theorem ipaddr_compare_trans (a b c : IpAddr) (x y z : Int) (h1 : ipaddrCompare a b = some x)
    (h2 : ipaddrCompare b c = some y) (h3 : ipaddrCompare a c = some z) (hx : x < 0) (hy : y < 0) : z < 0 := by
  unfold ipaddrCompare at h1 h2 h3
  dsimp only at h1 h2 h3
  by_cases hab : a.family = b.family
  · rw [if_neg (by omega)] at h1
    by_cases hbc : b.family = c.family
    · rw [if_neg (by omega)] at h2
      rw [if_neg (by omega)] at h3
      by_cases h4 : a.family = PF_INET
      · rw [if_pos h4] at h1 h3
        rw [if_pos (hab ▸ h4)] at h2
        unfold subInt at h1 h2 h3
        split at h1 <;> split at h2 <;> split at h3 <;>
          first | (cases h1; done) | (cases h2; done) | (cases h3; done) | skip
        have := Option.some.inj h1
        have := Option.some.inj h2
        have := Option.some.inj h3
        omega
      · rw [if_neg h4] at h1 h3
        rw [if_neg (hab ▸ h4)] at h2
        have e1 := Option.some.inj h1
        have e2 := Option.some.inj h2
        have e3 := Option.some.inj h3
        rw [← e3]
        exact memcmp_trans _ (addr8 b) _ rfl rfl (by omega) (by omega)
    · rw [if_pos (by omega)] at h2 h3
      have := Option.some.inj h2
      have := Option.some.inj h3
      omega
  · rw [if_pos (by omega)] at h1
    have := Option.some.inj h1
    by_cases hbc : b.family = c.family
    · rw [if_pos (by omega)] at h3
      have := Option.some.inj h3
      omega
    · rw [if_pos (by omega)] at h2
      have := Option.some.inj h2
      rw [if_pos (by omega)] at h3
      have := Option.some.inj h3
      omega

/-- **C40** The comparison is undefined exactly for two IPv4 addresses whose signed words differ by more than an int
can hold; everything else - all IPv6 addresses, mixed families - is always defined. -/
theorem ipaddr_compare_undefined_iff (a b : IpAddr) :
    ipaddrCompare a b = none ↔ a.family = PF_INET ∧ b.family = PF_INET ∧ (a.w0.toInt - b.w0.toInt < -(2 : Int) ^ 31 ∨ (2 : Int) ^ 31 ≤ a.w0.toInt - b.w0.toInt) := by
  have hI : (a.w0.toInt - b.w0.toInt < -(2 : Int) ^ 31 ∨ (2 : Int) ^ 31 ≤ a.w0.toInt - b.w0.toInt) ↔ ¬ InInt (a.w0.toInt - b.w0.toInt) := by unfold InInt; omega
  rw [hI]
  unfold ipaddrCompare
  dsimp only
  by_cases hf : a.family = b.family
  · rw [if_neg (by omega)]
    by_cases h4 : a.family = PF_INET
    · rw [if_pos h4]
      unfold subInt
      split
      · simp_all
      · rename_i h; exact ⟨fun _ => ⟨h4, hf ▸ h4, h⟩, fun _ => rfl⟩
    · rw [if_neg h4]; simp [h4]
  · rw [if_pos (by omega)]
    constructor
    · intro h; cases h
    · intro h; exact absurd (h.1.trans h.2.1.symm) hf

/-- **C40** Among addresses of one family other than IPv4 the comparison is a total order on the sixteen bytes: the
condition the red-black tree needs. -/
theorem ipaddr6_compare_order :
    RB.IsOrder (fun (a b : BitVec 32 × BitVec 32 × BitVec 32 × BitVec 32) =>
      (ipaddrCompare ⟨PF_INET6, a.1, a.2.1, a.2.2.1, a.2.2.2⟩ ⟨PF_INET6, b.1, b.2.1, b.2.2.1, b.2.2.2⟩).getD 0) := by
  have key : ∀ a b : IpAddr, a.family = PF_INET6 → b.family = PF_INET6 →
      ipaddrCompare a b = some (memcmp (addr8 a) (addr8 b)) := by
    intro a b h1 h2
    unfold ipaddrCompare
    dsimp only
    rw [if_neg (by omega), if_neg (by rw [h1]; decide)]
  refine ⟨?_, ?_, ?_⟩
  · rintro ⟨a0, a1, a2, a3⟩ ⟨b0, b1, b2, b3⟩
    rw [key _ _ rfl rfl]
    simp only [Option.getD_some, memcmp_addr, Prod.mk.injEq]
  · rintro ⟨a0, a1, a2, a3⟩ ⟨b0, b1, b2, b3⟩
    rw [key _ _ rfl rfl, key _ _ rfl rfl]
    simp only [Option.getD_some]
    have := memcmp_neg (addr8 ⟨PF_INET6, a0, a1, a2, a3⟩) (addr8 ⟨PF_INET6, b0, b1, b2, b3⟩)
    omega
  · rintro ⟨a0, a1, a2, a3⟩ ⟨b0, b1, b2, b3⟩ ⟨c0, c1, c2, c3⟩
    rw [key _ _ rfl rfl, key _ _ rfl rfl, key _ _ rfl rfl]
    simp only [Option.getD_some]
    exact memcmp_trans _ _ _ rfl rfl

/-- The IPv4 comparison on a machine whose signed subtraction wraps. -/
def v4CompareWrap (x y : BitVec 32) : Int := (x - y).toInt

/-- **C40 (finding)** On the whole IPv4 space the comparison is not an order: some pair overflows (undefined
behaviour), and with wrapping arithmetic there are `a < b < c < a`; sorting or tree search by it is unsound. -/
theorem ipaddr_v4_compare_not_an_order :
    (∃ a b : IpAddr, a.family = PF_INET ∧ b.family = PF_INET ∧ ipaddrCompare a b = none) ∧
    (∃ x y z : BitVec 32, v4CompareWrap x y < 0 ∧ v4CompareWrap y z < 0 ∧ v4CompareWrap z x < 0) :=
  ⟨⟨⟨PF_INET, 0x70000000#32, 0, 0, 0⟩, ⟨PF_INET, 0x90000000#32, 0, 0, 0⟩, rfl, rfl, by decide⟩,
   ⟨0x00000000#32, 0x60000000#32, 0xC0000000#32, by decide⟩⟩

/-- **C40 (finding)** The order is not the numeric order of dotted addresses, since the word is in network order:
1.0.0.2 compares above 2.0.0.1. -/
theorem ipaddr_v4_compare_not_numeric :
    ipaddrCompare ⟨PF_INET, 0x02000001#32, 0, 0, 0⟩ ⟨PF_INET, 0x01000002#32, 0, 0, 0⟩ = some 16777215 := by decide

/-! ## C40: C++ operators -/

/-- **C40** The C++ `operator==` is equality of addresses, and agrees with the C comparison. -/
theorem cpp_eq_iff (a b : IpAddr) : cppEq a b = true ↔ Same a b := by
  unfold cppEq Same
  by_cases hf : a.family = b.family
  · rw [if_neg (by simpa using hf)]
    by_cases h4 : a.family = PF_INET
    · rw [if_pos h4, decide_eq_true_iff]
      exact ⟨fun h => ⟨hf, fun _ => h, fun n => absurd h4 n⟩, fun h => h.2.1 h4⟩
    · rw [if_neg h4, decide_eq_true_iff, memcmp_addr]
      exact ⟨fun h => ⟨hf, fun n => absurd n h4, fun _ => h⟩, fun h => h.2.2 h4⟩
  · rw [if_pos hf]; simp [hf]

/-- **C40** The C++ `operator<` is a strict total order on all addresses, IPv4 included: exactly one of `a < b`,
`a == b`, `b < a` holds, and it is transitive. -/
theorem cpp_lt_total_order :
    (∀ a b, cppLt a b = true → cppLt b a = false) ∧
    (∀ a b, cppLt a b = false → cppLt b a = false → Same a b) ∧
    (∀ a b, Same a b → cppLt a b = false) ∧
    (∀ a b c, cppLt a b = true → cppLt b c = true → cppLt a c = true) := by
  have char : ∀ a b, cppLt a b = true ↔ a.family < b.family ∨
      (a.family = b.family ∧ a.family = PF_INET ∧ a.w0.toNat < b.w0.toNat) ∨
      (a.family = b.family ∧ a.family ≠ PF_INET ∧ memcmp (addr8 a) (addr8 b) < 0) := by
    intro a b
    unfold cppLt
    by_cases h1 : a.family < b.family
    · simp [h1]
    · rw [if_neg h1]
      by_cases h2 : a.family > b.family
      · rw [if_pos h2]; simp; omega
      · rw [if_neg h2]
        have hf : a.family = b.family := by omega
        by_cases h4 : a.family = PF_INET
        · rw [if_pos h4, decide_eq_true_iff]; simp [h1, hf, hf ▸ h4]
        · rw [if_neg h4, decide_eq_true_iff]; simp [h1, hf, hf ▸ h4]
  have charF : ∀ a b, cppLt a b = false ↔ ¬ (a.family < b.family ∨
      (a.family = b.family ∧ a.family = PF_INET ∧ a.w0.toNat < b.w0.toNat) ∨
      (a.family = b.family ∧ a.family ≠ PF_INET ∧ memcmp (addr8 a) (addr8 b) < 0)) := by
    intro a b; rw [← char]; simp
  refine ⟨?_, ?_, ?_, ?_⟩
  · intro a b h
    rw [char] at h
    rw [charF]
    have := memcmp_neg (addr8 a) (addr8 b)
    rintro (h' | ⟨h', h''⟩ | ⟨h', h''⟩) <;> rcases h with h | ⟨e, f⟩ | ⟨e, f⟩ <;> omega
  · intro a b h1 h2
    rw [charF] at h1 h2
    have hf : a.family = b.family := by omega
    have hm := memcmp_neg (addr8 a) (addr8 b)
    refine ⟨hf, ?_, ?_⟩
    · intro h4
      refine BitVec.eq_of_toNat_eq ?_
      have : ¬ a.w0.toNat < b.w0.toNat := fun h => h1 (Or.inr (Or.inl ⟨hf, h4, h⟩))
      have : ¬ b.w0.toNat < a.w0.toNat := fun h => h2 (Or.inr (Or.inl ⟨hf.symm, hf ▸ h4, h⟩))
      omega
    · intro h6
      rw [← memcmp_addr]
      have : ¬ memcmp (addr8 a) (addr8 b) < 0 := fun h => h1 (Or.inr (Or.inr ⟨hf, h6, h⟩))
      have : ¬ memcmp (addr8 b) (addr8 a) < 0 := fun h => h2 (Or.inr (Or.inr ⟨hf.symm, hf ▸ h6, h⟩))
      omega
  · intro a b ⟨hf, h4, h6⟩
    rw [charF]
    rintro (h | ⟨_, e, h⟩ | ⟨_, e, h⟩)
    · omega
    · rw [h4 e] at h; omega
    · have := memcmp_addr.mpr (h6 e); omega
  · intro a b c h1 h2
    rw [char] at h1 h2 ⊢
    rcases h1 with h1 | ⟨e1, f1, g1⟩ | ⟨e1, f1, g1⟩ <;> rcases h2 with h2 | ⟨e2, f2, g2⟩ | ⟨e2, f2, g2⟩
    · left; omega
    · left; omega
    · left; omega
    · left; omega
    · right; left; exact ⟨by omega, f1, by omega⟩
    · omega
    · left; omega
    · omega
    · right; right; exact ⟨by omega, f1, memcmp_trans _ (addr8 b) _ rfl rfl g1 g2⟩

/-- **C40 (finding)** The C comparison and the C++ operator order IPv4 addresses differently: C++ says
0.0.0.0 < 0.0.0.144 (word 0x90000000), the C function says it is greater. -/
theorem cpp_lt_disagrees_with_compare :
    cppLt ⟨PF_INET, 0x00000000#32, 0, 0, 0⟩ ⟨PF_INET, 0x90000000#32, 0, 0, 0⟩ = true ∧
    ipaddrCompare ⟨PF_INET, 0x00000000#32, 0, 0, 0⟩ ⟨PF_INET, 0x90000000#32, 0, 0, 0⟩ = some 0x70000000 := by decide

/-- **C40** The C++ hash agrees on equal IPv6 addresses. -/
theorem cpp_hash_respects_eq (a b : IpAddr) (h : Same a b) (h6 : a.family ≠ PF_INET) : cppHash a = cppHash b := by
  obtain ⟨e0, e1, e2, e3⟩ := h.2.2 h6
  unfold cppHash; rw [e0, e1, e2, e3]

/-- **C40 (finding)** For IPv4 the C++ hash also reads the three words `ksocket_ipaddr` never writes: the same address
extracted into two variables hashes differently as soon as their old contents do. -/
theorem cpp_hash_reads_garbage (a : SockAddr) (h4 : a.family = PF_INET) :
    ∃ r r', Same (ipaddrOf a r) (ipaddrOf a r') ∧ cppHash (ipaddrOf a r) ≠ cppHash (ipaddrOf a r') := by
  refine ⟨⟨0, 0, 0, 0, 0⟩, ⟨0, 0, 1, 0, 0⟩, ?_, ?_⟩
  · unfold ipaddrOf; rw [if_pos h4, if_pos h4]
    exact ⟨rfl, fun _ => rfl, fun n => absurd h4 n⟩
  · unfold ipaddrOf cppHash; rw [if_pos h4, if_pos h4]
    dsimp only
    intro h
    have := congrArg (fun w => w.getLsbD 0) h
    simp at this

/-! ## C40: masking -/

/-- **C40** Masking twice is masking once (as addresses, whatever the result variables held). -/
theorem ipaddr_and_idempotent (a m r r' : IpAddr) : Same (ipaddrAnd (ipaddrAnd a m r) m r') (ipaddrAnd a m r) := by
  unfold Same ipaddrAnd
  by_cases h4 : a.family = PF_INET
  · simp [h4, BitVec.and_assoc]
  · simp [h4, BitVec.and_assoc]

/-- **C40** Network membership: masking an address and a network address and comparing gives 0 exactly when the two
agree in family and in every bit the mask selects, for IPv4 (32 bits) and IPv6 (128 bits), whatever the result variables
held before. -/
theorem ipaddr_and_membership (a n m r r' : IpAddr) :
    ipaddrCompare (ipaddrAnd a m r) (ipaddrAnd n m r') = some 0 ↔ InNetwork a n m := by
  have hw : ∀ x y z : BitVec 32, x &&& z = y &&& z ↔
      ∀ j, j < 32 → z.getLsbD j = true → x.getLsbD j = y.getLsbD j := by
    intro x y z
    constructor
    · intro h j _ hz
      have := congrArg (fun w => w.getLsbD j) h
      simpa [BitVec.getLsbD_and, hz] using this
    · intro h
      apply BitVec.eq_of_getLsbD_eq
      intro j hj
      rw [BitVec.getLsbD_and, BitVec.getLsbD_and]
      by_cases hz : z.getLsbD j = true
      · rw [h j hj hz]
      · simp [hz]
  rw [ipaddr_compare_zero_iff]
  have famA : ∀ x r : IpAddr, (ipaddrAnd x m r).family = x.family := by
    intro x r; unfold ipaddrAnd; dsimp only; split <;> rfl
  unfold Same InNetwork
  rw [famA, famA]
  constructor
  · rintro ⟨hf, h4, h6⟩
    refine ⟨hf, ?_⟩
    intro i hi hi4 j hj hm
    by_cases e : a.family = PF_INET
    · obtain rfl := hi4 e
      have := h4 e
      unfold ipaddrAnd at this
      rw [if_pos e, if_pos (hf ▸ e)] at this
      exact (hw _ _ _).mp this j hj hm
    · have := h6 e
      unfold ipaddrAnd at this
      rw [if_neg e, if_neg (hf ▸ e)] at this
      dsimp only at this
      match i, hi with
      | 0, _ => exact (hw _ _ _).mp this.1 j hj hm
      | 1, _ => exact (hw _ _ _).mp this.2.1 j hj hm
      | 2, _ => exact (hw _ _ _).mp this.2.2.1 j hj hm
      | 3, _ => exact (hw _ _ _).mp this.2.2.2 j hj hm
  · rintro ⟨hf, h⟩
    refine ⟨hf, ?_, ?_⟩
    · intro e
      unfold ipaddrAnd
      rw [if_pos e, if_pos (hf ▸ e)]
      exact (hw _ _ _).mpr (fun j hj hz => h 0 (by omega) (fun _ => rfl) j hj hz)
    · intro e
      unfold ipaddrAnd
      rw [if_neg e, if_neg (hf ▸ e)]
      exact ⟨(hw _ _ _).mpr (fun j hj hz => h 0 (by omega) (fun x => absurd x e) j hj hz),
        (hw _ _ _).mpr (fun j hj hz => h 1 (by omega) (fun x => absurd x e) j hj hz),
        (hw _ _ _).mpr (fun j hj hz => h 2 (by omega) (fun x => absurd x e) j hj hz),
        (hw _ _ _).mpr (fun j hj hz => h 3 (by omega) (fun x => absurd x e) j hj hz)⟩

/-- **C40** Reading back a port: `ksocket_addr_port` of an IPv4 or IPv6 address whose port was stored with `htons` is
that port, for every 16-bit port. -/
theorem addr_port_roundtrip (a : SockAddr) (p : Nat) (hp : p < 65536) (hs : a.port = swap16 p)
    (hf : a.family = PF_INET ∨ a.family = PF_INET6) : addrPort a = p := by
  have : swap16 (swap16 p) = p := by
    unfold swap16
    have h1 : p % 256 < 256 := Nat.mod_lt _ (by omega)
    have h2 : p / 256 % 256 = p / 256 := Nat.mod_eq_of_lt (by omega)
    rw [h2]
    generalize hx : p % 256 = x at *
    generalize hy : p / 256 = y at *
    have h3 : (x * 256 + y) % 256 = y := by omega
    have h4 : (x * 256 + y) / 256 % 256 = x := by omega
    rw [h3, h4]; omega
  unfold addrPort
  rw [hs, this]
  rcases hf with h | h
  · rw [if_pos h]
  · rw [if_pos h]; split <;> rfl

/-! ## Concrete cases -/

/-- 192.168.1.7 lies in 192.168.0.0/16, 10.0.0.1 does not -/
example : ipaddrCompare (ipaddrAnd ⟨PF_INET, 0x0701A8C0#32, 5, 6, 7⟩ ⟨PF_INET, 0x0000FFFF#32, 0, 0, 0⟩ ⟨0, 0, 1, 2, 3⟩)
    (ipaddrAnd ⟨PF_INET, 0x0000A8C0#32, 0, 0, 0⟩ ⟨PF_INET, 0x0000FFFF#32, 0, 0, 0⟩ ⟨9, 9, 9, 9, 9⟩) = some 0 := by decide
example : ipaddrCompare (ipaddrAnd ⟨PF_INET, 0x0100000A#32, 5, 6, 7⟩ ⟨PF_INET, 0x0000FFFF#32, 0, 0, 0⟩ ⟨0, 0, 1, 2, 3⟩)
    (ipaddrAnd ⟨PF_INET, 0x0000A8C0#32, 0, 0, 0⟩ ⟨PF_INET, 0x0000FFFF#32, 0, 0, 0⟩ ⟨9, 9, 9, 9, 9⟩) ≠ some 0 := by decide
example : addrPort ⟨PF_INET6, 0x5000, 0, ⟨PF_INET6, 0, 0, 0, 0⟩⟩ = 80 := by decide
example : ∃ x y z, ipaddrCompare ⟨PF_INET6, 1, 0, 0, 0⟩ ⟨PF_INET6, 2, 0, 0, 0⟩ = some x ∧
    ipaddrCompare ⟨PF_INET6, 2, 0, 0, 0⟩ ⟨PF_INET6, 2, 0, 0, 9⟩ = some y ∧
    ipaddrCompare ⟨PF_INET6, 1, 0, 0, 0⟩ ⟨PF_INET6, 2, 0, 0, 9⟩ = some z ∧ x < 0 ∧ y < 0 :=
  ⟨-1, -9, -1, by decide⟩

end Kasync.Ip
