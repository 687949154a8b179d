import Verif.RB.Props

/-!
# The comparators shipped with the red-black tree (src/krbtree.c:14-37)

`Verif.RB.Props` proves the tree correct for any comparator that is a total order (`IsOrder`).  This file
settles which of the four comparators the library exports meet that condition, and on which keys.
A C `int` is an `Int` inside `[-2^31, 2^31)`; a comparator whose subtraction overflows has undefined behaviour
(`none`).  `strcmp` and `strcasecmp` are libc functions: they are modelled by their C standard / POSIX
description (first difference, as unsigned char, in the C locale), strings being the bytes before the NUL.
-/

namespace Kasync.RB

/-- The range of a C `int` on the supported platforms. -/
def InInt (x : Int) : Prop := -2147483648 ≤ x ∧ x ≤ 2147483647

instance (x : Int) : Decidable (InInt x) := inferInstanceAs (Decidable (_ ∧ _))

/-- `rbtree_int_cmp`, src/krbtree.c:32-37: `return *k1 - *k2;`.  Signed overflow is undefined: `none`. -/
def rbtreeIntCmp (k1 k2 : Int) : Option Int :=
  if InInt (k1 - k2) then some (k1 - k2) else none

/-- The same function as a compiler that wraps signed arithmetic would run it (gcc -fwrapv; most -O0 code). -/
def rbtreeIntCmpWrap (k1 k2 : Int) : Int := (k1 - k2).bmod 4294967296

/-- `strcmp` of two strings given without their terminating NUL (which compares as byte 0);
called from `rbtree_string_cmp` src/krbtree.c:14-19 and, on Linux where `filecmp` is `strcmp`
(include/kforwin32.h:130), from `rbtree_file_cmp` src/krbtree.c:26-31. -/
def strcmp : List UInt8 → List UInt8 → Int
  | [], [] => 0
  | [], b :: _ => 0 - (b.toNat : Int)
  | a :: _, [] => (a.toNat : Int) - 0
  | a :: s, b :: t => if a = b then strcmp s t else (a.toNat : Int) - (b.toNat : Int)

/-- `tolower` in the C locale. -/
def toLower (c : UInt8) : UInt8 := if 65 ≤ c ∧ c ≤ 90 then c + 32 else c

/-- `strcasecmp`, called from `rbtree_string_case_cmp` src/krbtree.c:20-25: compares the lowered bytes. -/
def strcasecmp : List UInt8 → List UInt8 → Int
  | [], [] => 0
  | [], b :: _ => 0 - ((toLower b).toNat : Int)
  | a :: _, [] => ((toLower a).toNat : Int) - 0
  | a :: s, b :: t =>
    if toLower a = toLower b then strcasecmp s t else ((toLower a).toNat : Int) - ((toLower b).toNat : Int)

/-- Strings a C pointer can denote: no byte is NUL. -/
abbrev CStr := { l : List UInt8 // (0 : UInt8) ∉ l }

/-! ## Integers -/

/-- **C41** On two C ints the comparator is defined exactly while the mathematical difference fits in an int, and
then its sign is the order of the integers: negative below, zero on equality, positive above. -/
theorem int_cmp_correct_iff (a b : Int) (_ha : InInt a) (_hb : InInt b) :
    (rbtreeIntCmp a b = none ↔ ¬ InInt (a - b)) ∧
    (∀ r, rbtreeIntCmp a b = some r → InInt r ∧ (r < 0 ↔ a < b) ∧ (r = 0 ↔ a = b) ∧ (r > 0 ↔ a > b)) := by
  unfold rbtreeIntCmp
  constructor
  · split <;> simp_all
  · intro r h
    split at h
    · rename_i hi
      obtain rfl := Option.some.inj h
      refine ⟨hi, ?_, ?_, ?_⟩ <;> omega
    · cases h

/-- **C41** On every window of 2^31 consecutive ints (for example all non-negative ints, `lo = 0`) the comparator
is defined on all pairs and is a total order, so it satisfies the contract the tree needs. -/
theorem int_cmp_order_on_window (lo : Int) :
    (∀ a b, lo ≤ a → a ≤ lo + 2147483647 → lo ≤ b → b ≤ lo + 2147483647 → rbtreeIntCmp a b = some (a - b)) ∧
    IsOrder (fun (a b : { x : Int // lo ≤ x ∧ x ≤ lo + 2147483647 }) => (rbtreeIntCmp a b).getD 0) := by
  have key : ∀ a b, lo ≤ a → a ≤ lo + 2147483647 → lo ≤ b → b ≤ lo + 2147483647 →
      rbtreeIntCmp a b = some (a - b) := by
    intro a b h1 h2 h3 h4
    have : InInt (a - b) := by unfold InInt; omega
    unfold rbtreeIntCmp
    rw [if_pos this]
  refine ⟨key, ?_, ?_, ?_⟩
  · rintro ⟨a, ha⟩ ⟨b, hb⟩
    simp only [key a b ha.1 ha.2 hb.1 hb.2, Option.getD_some, Subtype.mk.injEq]; omega
  · rintro ⟨a, ha⟩ ⟨b, hb⟩
    simp only [key a b ha.1 ha.2 hb.1 hb.2, key b a hb.1 hb.2 ha.1 ha.2, Option.getD_some]; omega
  · rintro ⟨a, ha⟩ ⟨b, hb⟩ ⟨c, hc⟩
    simp only [key a b ha.1 ha.2 hb.1 hb.2, key b c hb.1 hb.2 hc.1 hc.2, key a c ha.1 ha.2 hc.1 hc.2,
      Option.getD_some]; omega

/-- **C41** The windows of `int_cmp_order_on_window` are the largest possible: a set of ints on which the
comparator is defined for every ordered pair lies within one of them. -/
theorem int_cmp_window_maximal (S : Int → Prop) (m : Int) (hm : S m) (hmin : ∀ x, S x → m ≤ x)
    (hdef : ∀ a b, S a → S b → rbtreeIntCmp a b ≠ none) : ∀ x, S x → m ≤ x ∧ x ≤ m + 2147483647 := by
  intro x hx
  refine ⟨hmin x hx, ?_⟩
  have := hdef x m hx hm
  unfold rbtreeIntCmp at this
  split at this
  · rename_i h; unfold InInt at h; omega
  · exact absurd rfl this

/-- **C41** A tree with non-negative int keys behaves as a finite map through every history. -/
theorem int_keyed_tree_is_map {α : Type} (lo : Int) (key : α → { x : Int // lo ≤ x ∧ x ≤ lo + 2147483647 })
    (ops : List (Op { x : Int // lo ≤ x ∧ x ≤ lo + 2147483647 } α)) :
    ∃ t, runTree (fun a b => (rbtreeIntCmp a.1 b.1).getD 0) key .nil ops =
      some (t, (Spec.run key (fun _ => none) ops).2) := by
  obtain ⟨t, h, _⟩ := rbtree_is_ordered_map _ (int_cmp_order_on_window lo).2 key ops
  exact ⟨t, h⟩

/-- **C41 (finding)** On the full int range the comparator overflows, and where signed arithmetic wraps it is not
an order: there are three ints with `x < y`, `y < z` and yet `z < x`. -/
theorem int_cmp_not_an_order :
    ∃ x y z : Int, InInt x ∧ InInt y ∧ InInt z ∧
      rbtreeIntCmpWrap x y < 0 ∧ rbtreeIntCmpWrap y z < 0 ∧ rbtreeIntCmpWrap z x < 0 ∧
      rbtreeIntCmp x z = none :=
  ⟨-2000000000, 0, 2000000000, by decide, by decide, by decide, by decide, by decide, by decide, by decide⟩

/-- **C41** The wrapping comparator agrees with the order exactly when the difference fits. -/
theorem int_cmp_wrap_correct_iff (a b : Int) (ha : InInt a) (hb : InInt b) :
    ((rbtreeIntCmpWrap a b < 0 ↔ a < b) ∧ (rbtreeIntCmpWrap a b > 0 ↔ a > b)) ↔ InInt (a - b) := by
  unfold InInt at *
  unfold rbtreeIntCmpWrap
  simp only [Int.bmod]
  split <;> omega

/-! ## Strings -/

theorem strcmp_self (s : List UInt8) : strcmp s s = 0 := by
  induction s with
  | nil => rfl
  | cons a s ih => simp [strcmp, ih]

theorem toNat_pos {b : UInt8} (h : b ≠ 0) : 0 < b.toNat := by
  rcases Nat.eq_zero_or_pos b.toNat with h0 | h0
  · exact absurd (UInt8.toNat_inj.mp (by simpa using h0)) h
  · exact h0

theorem toNat_ne {a b : UInt8} (h : a ≠ b) : a.toNat ≠ b.toNat := fun h' => h (UInt8.toNat_inj.mp h')

theorem strcmp_eq_zero : ∀ s t : List UInt8, (0 : UInt8) ∉ s → (0 : UInt8) ∉ t → (strcmp s t = 0 ↔ s = t)
  | [], [], _, _ => by simp [strcmp]
  | [], b :: t, _, h => by
    have := toNat_pos (b := b) (fun e => h (by simp [e]))
    simp only [strcmp]; constructor
    · omega
    · intro e; cases e
  | a :: s, [], h, _ => by
    have := toNat_pos (b := a) (fun e => h (by simp [e]))
    simp only [strcmp]; constructor
    · omega
    · intro e; cases e
  | a :: s, b :: t, hs, ht => by
    simp only [List.mem_cons, not_or] at hs ht
    simp only [strcmp]
    split
    · rename_i e; subst e
      rw [strcmp_eq_zero s t hs.2 ht.2]; simp
    · rename_i e
      have := toNat_ne e
      constructor
      · omega
      · intro e'; injection e' with e1 _; exact absurd e1 e

theorem strcmp_neg : ∀ s t : List UInt8, strcmp s t = - strcmp t s
  | [], [] => by simp [strcmp]
  | [], b :: t => by simp [strcmp]
  | a :: s, [] => by simp [strcmp]
  | a :: s, b :: t => by
    simp only [strcmp]
    by_cases e : a = b
    · subst e; simp only [if_true]; exact strcmp_neg s t
    · rw [if_neg e, if_neg (Ne.symm e)]; omega

theorem strcmp_trans : ∀ s t u : List UInt8, (0 : UInt8) ∉ s → (0 : UInt8) ∉ t → (0 : UInt8) ∉ u →
    strcmp s t < 0 → strcmp t u < 0 → strcmp s u < 0
  | [], _, [], _, _, _, h1, h2 => by
    rw [strcmp_neg] at h1; omega
  | [], _, c :: u, _, _, hu, _, _ => by
    have := toNat_pos (b := c) (fun e => hu (by simp [e]))
    simp only [strcmp]; omega
  | a :: s, [], _, _, _, _, h1, _ => by simp only [strcmp] at h1; omega
  | a :: s, b :: t, [], _, _, _, _, h2 => by simp only [strcmp] at h2; omega
  | a :: s, b :: t, c :: u, hs, ht, hu, h1, h2 => by
    simp only [List.mem_cons, not_or] at hs ht hu
    simp only [strcmp] at h1 h2 ⊢
    by_cases e1 : a = b
    · subst e1
      rw [if_pos rfl] at h1
      by_cases e2 : a = c
      · subst e2
        rw [if_pos rfl] at h2 ⊢
        exact strcmp_trans s t u hs.2 ht.2 hu.2 h1 h2
      · rw [if_neg e2] at h2 ⊢; exact h2
    · rw [if_neg e1] at h1
      by_cases e2 : b = c
      · subst e2; rw [if_neg e1]; exact h1
      · rw [if_neg e2] at h2
        have hne : a ≠ c := by rintro rfl; omega
        rw [if_neg hne]; omega

/-- The byte order of strings, independent of `strcmp`: at the first difference the smaller byte, or the string
that ends, comes first. -/
def StrLt (s t : List UInt8) : Prop :=
  ∃ p, (∃ b r, s = p ∧ t = p ++ b :: r) ∨ (∃ a b r r', s = p ++ a :: r ∧ t = p ++ b :: r' ∧ a < b)

theorem strcmp_lt_iff : ∀ s t : List UInt8, (0 : UInt8) ∉ s → (0 : UInt8) ∉ t → (strcmp s t < 0 ↔ StrLt s t)
  | [], [], _, _ => by
    simp only [strcmp, StrLt]
    constructor
    · omega
    · rintro ⟨p, ⟨b, r, h1, h2⟩ | ⟨a, b, r, r', h1, h2, _⟩⟩ <;> simp at h2
  | [], b :: t, _, h => by
    have := toNat_pos (b := b) (fun e => h (by simp [e]))
    simp only [strcmp]
    constructor
    · intro _; exact ⟨[], Or.inl ⟨b, t, rfl, rfl⟩⟩
    · intro _; omega
  | a :: s, [], _, _ => by
    simp only [strcmp, StrLt]
    constructor
    · omega
    · rintro ⟨p, ⟨b, r, h1, h2⟩ | ⟨a, b, r, r', h1, h2, _⟩⟩ <;> simp at h2
  | a :: s, b :: t, hs, ht => by
    simp only [List.mem_cons, not_or] at hs ht
    simp only [strcmp]
    by_cases e : a = b
    · subst e
      rw [if_pos rfl, strcmp_lt_iff s t hs.2 ht.2]
      constructor
      · rintro ⟨p, ⟨b, r, h1, h2⟩ | ⟨x, y, r, r', h1, h2, h3⟩⟩
        · exact ⟨a :: p, Or.inl ⟨b, r, by simp [h1], by simp [h2]⟩⟩
        · exact ⟨a :: p, Or.inr ⟨x, y, r, r', by simp [h1], by simp [h2], h3⟩⟩
      · rintro ⟨p, ⟨b, r, h1, h2⟩ | ⟨x, y, r, r', h1, h2, h3⟩⟩
        · subst h1
          simp only [List.cons_append, List.cons.injEq, true_and] at h2
          exact ⟨s, Or.inl ⟨b, r, rfl, h2⟩⟩
        · cases p with
          | nil =>
            simp only [List.nil_append, List.cons.injEq] at h1 h2
            rw [← h1.1, ← h2.1] at h3
            exact absurd h3 (UInt8.lt_irrefl a)
          | cons z p =>
            simp only [List.cons_append, List.cons.injEq] at h1 h2
            exact ⟨p, Or.inr ⟨x, y, r, r', h1.2, h2.2, h3⟩⟩
    · rw [if_neg e]
      constructor
      · intro h
        refine ⟨[], Or.inr ⟨a, b, s, t, rfl, rfl, ?_⟩⟩
        rw [UInt8.lt_iff_toNat_lt]; omega
      · rintro ⟨p, ⟨b, r, h1, h2⟩ | ⟨x, y, r, r', h1, h2, h3⟩⟩
        · subst h1
          simp only [List.cons_append, List.cons.injEq] at h2
          exact absurd h2.1.symm e
        · cases p with
          | nil =>
            simp only [List.nil_append, List.cons.injEq] at h1 h2
            rw [← h1.1, ← h2.1, UInt8.lt_iff_toNat_lt] at h3; omega
          | cons z p =>
            simp only [List.cons_append, List.cons.injEq] at h1 h2
            exact absurd (h1.1.trans h2.1.symm) e

/-- **C44** `rbtree_string_cmp` (and `rbtree_file_cmp` on Linux) is a total order on C strings: the byte order. -/
theorem string_cmp_order :
    IsOrder (fun (s t : CStr) => strcmp s.1 t.1) ∧
    ∀ s t : CStr, strcmp s.1 t.1 < 0 ↔ StrLt s.1 t.1 := by
  refine ⟨⟨?_, ?_, ?_⟩, fun s t => strcmp_lt_iff s.1 t.1 s.2 t.2⟩
  · intro a b; rw [strcmp_eq_zero _ _ a.2 b.2]; exact Subtype.ext_iff.symm
  · intro a b; rw [strcmp_neg]; omega
  · intro a b c; exact strcmp_trans _ _ _ a.2 b.2 c.2

/-- **C44** A tree keyed by C strings and searched with `rbtree_string_cmp` is a finite map. -/
theorem string_keyed_tree_is_map {α : Type} (key : α → CStr) (ops : List (Op CStr α)) :
    ∃ t, runTree (fun s t => strcmp s.1 t.1) key .nil ops = some (t, (Spec.run key (fun _ => none) ops).2) := by
  obtain ⟨t, h, _⟩ := rbtree_is_ordered_map _ string_cmp_order.1 key ops
  exact ⟨t, h⟩

/-! ## Case-insensitive strings -/

theorem strcasecmp_eq : ∀ s t : List UInt8, strcasecmp s t = strcmp (s.map toLower) (t.map toLower)
  | [], [] => rfl
  | [], _ :: _ => rfl
  | _ :: _, [] => rfl
  | a :: s, b :: t => by
    simp only [strcasecmp, strcmp, List.map_cons, strcasecmp_eq s t]

theorem toLower_ne_zero {c : UInt8} (h : c ≠ 0) : toLower c ≠ 0 := by
  unfold toLower
  split
  · rename_i hr
    intro e
    have h1 := UInt8.le_iff_toNat_le.mp hr.1
    have h2 := UInt8.le_iff_toNat_le.mp hr.2
    have h3 := congrArg UInt8.toNat e
    rw [UInt8.toNat_add] at h3
    have e1 : (65 : UInt8).toNat = 65 := rfl
    have e2 : (90 : UInt8).toNat = 90 := rfl
    have e3 : (32 : UInt8).toNat = 32 := rfl
    have e4 : (0 : UInt8).toNat = 0 := rfl
    omega
  · exact h

/-- Two bytes are folded together exactly if they are the same byte or the two cases of one ASCII letter. -/
theorem toLower_eq_iff (a b : UInt8) : toLower a = toLower b ↔
    a.toNat = b.toNat ∨ (65 ≤ a.toNat ∧ a.toNat ≤ 90 ∧ b.toNat = a.toNat + 32) ∨
    (65 ≤ b.toNat ∧ b.toNat ≤ 90 ∧ a.toNat = b.toNat + 32) := by
  have key : ∀ c : UInt8, (toLower c).toNat = if 65 ≤ c.toNat ∧ c.toNat ≤ 90 then c.toNat + 32 else c.toNat := by
    intro c
    have e1 : (65 : UInt8).toNat = 65 := rfl
    have e2 : (90 : UInt8).toNat = 90 := rfl
    have e3 : (32 : UInt8).toNat = 32 := rfl
    unfold toLower
    split
    · rename_i h
      simp only [UInt8.le_iff_toNat_le] at h
      rw [e1, e2] at h
      rw [UInt8.toNat_add, e3, if_pos h]; omega
    · rename_i h
      simp only [UInt8.le_iff_toNat_le] at h
      rw [e1, e2] at h
      rw [if_neg h]
  rw [← UInt8.toNat_inj, key, key]
  split <;> split <;> omega

/-- Lowered strings: what a case-insensitive tree is really keyed by. -/
def fold (s : CStr) : CStr :=
  ⟨s.1.map toLower, by
    intro h
    obtain ⟨c, hc, e⟩ := List.mem_map.mp h
    exact toLower_ne_zero (fun e0 => by subst e0; exact s.2 hc) e⟩

/-- **C44** `rbtree_string_case_cmp` is a total order on strings up to letter case: it returns 0 exactly on strings
that differ only in the case of ASCII letters, and otherwise orders by the lowered bytes. -/
theorem string_case_cmp_order (s t : CStr) :
    (strcasecmp s.1 t.1 = 0 ↔ s.1.map toLower = t.1.map toLower) ∧
    (strcasecmp s.1 t.1 < 0 ↔ StrLt (s.1.map toLower) (t.1.map toLower)) ∧
    (strcasecmp s.1 t.1 < 0 ↔ strcasecmp t.1 s.1 > 0) := by
  have h := string_cmp_order.1
  refine ⟨?_, ?_, ?_⟩
  · rw [strcasecmp_eq]; exact strcmp_eq_zero _ _ (fold s).2 (fold t).2
  · rw [strcasecmp_eq]; exact strcmp_lt_iff _ _ (fold s).2 (fold t).2
  · rw [strcasecmp_eq, strcasecmp_eq]; exact h.anti (fold s) (fold t)

theorem findLoc_congr {α κ κ' : Type} {f : κ → α → Int} {g : κ' → α → Int} {k : κ} {k' : κ'}
    (h : ∀ x, f k x = g k' x) : ∀ (t : Tree α) (p : Path α), findLoc f k t p = findLoc g k' t p := by
  intro t
  induction t with
  | nil => intro p; rfl
  | node c l x r ihl ihr => intro p; simp only [findLoc, h, ihl, ihr]

theorem insertLoc_congr {α κ κ' : Type} {f : κ → α → Int} {g : κ' → α → Int} {k : κ} {k' : κ'}
    (h : ∀ x, f k x = g k' x) (a : α) (root : Tree α) :
    ∀ (t : Tree α) (p : Path α), insertLoc f k a root t p = insertLoc g k' a root t p := by
  intro t
  induction t with
  | nil => intro p; rfl
  | node c l x r ihl ihr => intro p; simp only [insertLoc, h, ihl, ihr]

/-- The operation with its key lowered. -/
def Op.fold {α : Type} : Op CStr α → Op CStr α
  | .insert a => .insert a
  | .remove k => .remove (Kasync.RB.fold k)
  | .find k => .find (Kasync.RB.fold k)

/-- The comparator is only applied to the key searched and to stored keys, so a case-insensitive tree runs as a
tree keyed by lowered strings. -/
theorem stepTree_fold {α : Type} (key : α → CStr) (t : Tree α) (o : Op CStr α) :
    stepTree (fun s t => strcasecmp s.1 t.1) key t o =
    stepTree (fun s t => strcmp s.1 t.1) (fun a => fold (key a)) t o.fold := by
  cases o with
  | insert a =>
    simp only [stepTree, Op.fold, insert]
    rw [insertLoc_congr (g := fun k x => strcmp k.1 (fold (key x)).1) (k' := fold (key a))
      (fun x => strcasecmp_eq _ _)]
  | remove k =>
    simp only [stepTree, Op.fold, find]
    rw [findLoc_congr (g := fun k x => strcmp k.1 (fold (key x)).1) (k' := fold k) (fun x => strcasecmp_eq _ _)]
  | find k =>
    simp only [stepTree, Op.fold, find]
    rw [findLoc_congr (g := fun k x => strcmp k.1 (fold (key x)).1) (k' := fold k) (fun x => strcasecmp_eq _ _)]

theorem runTree_fold {α : Type} (key : α → CStr) (ops : List (Op CStr α)) : ∀ t : Tree α,
    runTree (fun s t => strcasecmp s.1 t.1) key t ops =
    runTree (fun s t => strcmp s.1 t.1) (fun a => fold (key a)) t (ops.map Op.fold) := by
  induction ops with
  | nil => intro t; rfl
  | cons o os ih => intro t; simp only [runTree, List.map_cons, stepTree_fold, ih]

/-- **C44** A tree searched with `rbtree_string_case_cmp` is a finite map from strings with their case forgotten:
two strings that differ only in case are one key, all others are distinct keys. -/
theorem string_case_keyed_tree_is_map {α : Type} (key : α → CStr) (ops : List (Op CStr α)) :
    ∃ t, runTree (fun s t => strcasecmp s.1 t.1) key .nil ops =
      some (t, (Spec.run (fun a => fold (key a)) (fun _ => none) (ops.map Op.fold)).2) := by
  rw [runTree_fold]
  exact string_keyed_tree_is_map _ _

/-! ## Concrete cases -/

/-- "abc", "ABD", "ab" -/
example : strcmp [97, 98, 99] [65, 66, 68] > 0 ∧ strcasecmp [97, 98, 99] [65, 66, 68] < 0 ∧
    strcmp [97, 98] [97, 98, 99] < 0 ∧ strcasecmp [97, 66] [65, 98] = 0 := by decide
/-- byte 200 sorts after ASCII: the comparison is unsigned -/
example : strcmp [200] [97] > 0 := by decide
example : StrLt [97, 98] [97, 98, 99] := ⟨[97, 98], Or.inl ⟨99, [], rfl, rfl⟩⟩
example : InInt 2147483647 ∧ InInt (-1) ∧ rbtreeIntCmp 2147483647 (-1) = none ∧
    rbtreeIntCmp 2147483647 0 = some 2147483647 := by decide
/-- a history with a duplicate key up to case -/
example : (runTree (fun s t : CStr => strcasecmp s.1 t.1) (fun a : CStr × Nat => a.1) .nil
    [.insert (⟨[97], by decide⟩, 1), .insert (⟨[65], by decide⟩, 2), .find ⟨[65], by decide⟩]).map
      (fun r => r.2.map (fun o => match o with | .inserted a n => (a.2, n) | .found (some a) => (a.2, true) | _ => (0, false))) =
    some [(1, true), (1, false), (1, true)] := by decide

end Kasync.RB
